import Verif.Spec.Shape
import Verif.Spec.Typed
import Verif.Proofs.Ends
import Verif.Proofs.JsonExport
import Verif.Proofs.Yaml
import Verif.Proofs.BsonPrint
/-
Exporting is defined behaviour.
-/
namespace Thors
open Spec StrIn

/-! ### The calls of the serialiser are nested -/

mutual
/-- The calls for a value. -/
inductive Calls : List Cmd → Prop
  | int (k : IntKind) (i : Int) : Calls [.addInt k i]
  | flt (f : FKind) (x : Flt) : Calls [.addFlt f x]
  | bool (b : Bool) : Calls [.addBool b]
  | str (s : Bytes) : Calls [.addStr s]
  | null : Calls [.addNull]
  | map (n : Nat) {b : List Cmd} : MemberCalls b → Calls (.openMap n :: b ++ [.closeMap])
  | array (n : Nat) {b : List Cmd} : ElemCalls b → Calls (.openArray n :: b ++ [.closeArray])
/-- The calls inside of a map. -/
inductive MemberCalls : List Cmd → Prop
  | nil : MemberCalls []
  | cons (k : Bytes) {a b : List Cmd} : Calls a → MemberCalls b → MemberCalls (.addKey k :: a ++ b)
/-- The calls inside of an array. -/
inductive ElemCalls : List Cmd → Prop
  | nil : ElemCalls []
  | cons {a b : List Cmd} : Calls a → ElemCalls b → ElemCalls (a ++ b)
end

theorem MemberCalls.append {a b : List Cmd} (ha : MemberCalls a) (hb : MemberCalls b) : MemberCalls (a ++ b) := by
  refine MemberCalls.rec (motive_1 := fun _ _ => True) (motive_2 := fun a _ => MemberCalls (a ++ b)) (motive_3 := fun _ _ => True)
    ?_ ?_ ?_ ?_ ?_ ?_ ?_ ?_ ?_ ?_ ?_ ha
  all_goals first | (intros; trivial) | exact hb | skip
  intro k a c h1 h2 _ ih
  simpa using MemberCalls.cons k h1 ih

section
variable (env : Env) (marker : Bytes) (sz : Ty → Val → Bool → Res Nat) (E : List (Int × Bytes) → Int → Prop)

theorem inMap_safe {size : Res Nat} {body : Res (List Cmd)} (hs : size ≠ .ub) (hb : Safe MemberCalls body) : Safe Calls (inMap size body) := by
  unfold inMap
  refine Safe.bind (P := fun _ => True) (by cases size <;> first | trivial | exact absurd rfl hs) fun n _ => hb.bind fun b hb => .ok (.map n hb)

theorem inArray_safe {size : Res Nat} {body : Res (List Cmd)} (hs : size ≠ .ub) (hb : Safe ElemCalls body) : Safe Calls (inArray size body) := by
  unfold inArray
  refine Safe.bind (P := fun _ => True) (by cases size <;> first | trivial | exact absurd rfl hs) fun n _ => hb.bind fun b hb => .ok (.array n hb)

variable (hsz : ∀ t v p, ValShape env E t v → sz t v p ≠ .ub)
include hsz

mutual
theorem ser_safe : ∀ (v : Val) (ty : Ty), ValShape env E ty v → Safe Calls (ser env marker sz ty v)
  | .int i, ty, h => by
    cases ty <;> first | exact (h : False).elim | skip
    exact .int _ i
  | .flt x, ty, h => by
    cases ty <;> first | exact (h : False).elim | skip
    exact .flt _ x
  | .bool b, ty, h => by
    cases ty <;> first | exact (h : False).elim | skip
    exact .bool b
  | .str s, ty, h => by
    cases ty <;> first | exact (h : False).elim | skip
    exact .str s
  | .none, ty, h => by
    cases ty <;> first | exact (h : False).elim | skip
    trivial
  | .null, ty, h => by
    cases ty <;> first | exact (h : False).elim | skip
    · exact .null
    · exact .null
  | .some v, ty, h => by
    cases ty <;> first | exact (h : False).elim | skip
    exact ser_safe v _ h
  | .ptr v, ty, h => by
    cases ty <;> first | exact (h : False).elim | skip
    exact ser_safe v _ h
  | .list vs, ty, h => by
    cases ty <;> first | exact (h : False).elim | skip
    · exact inArray_safe (hsz _ _ _ h) (serList_safe vs _ h)
    · exact inArray_safe (hsz _ _ _ h) (serList_safe vs _ h)
    · rename_i i
      have h0 := h
      unfold ValShape at h
      unfold ser
      cases hd : env.defs i <;> rw [hd] at h <;> first | exact h.elim | skip
      exact inArray_safe (hsz _ _ _ h0) (serTuple_safe vs _ h)
  | .dict kvs, ty, h => by
    cases ty <;> first | exact (h : False).elim | skip
    · exact inMap_safe (hsz _ _ _ h) (serDict_safe kvs _ h)
    · exact inMap_safe (hsz _ _ _ h) (serDict_safe kvs _ h)
    · exact inMap_safe (hsz _ _ _ h) (serDict_safe kvs _ h)
  | .enum n, ty, h => by
    cases ty <;> first | exact (h : False).elim | skip
    rename_i i
    unfold ValShape at h
    unfold ser
    cases hd : env.defs i <;> rw [hd] at h <;> first | exact h.elim | skip
    rename_i table
    dsimp only
    cases enumName table n
    · trivial
    · exact .str _
  | .obj ps fs, ty, h => by
    cases ty <;> first | exact (h : False).elim | skip
    rename_i i
    have h0 := h
    unfold ValShape at h
    unfold ser
    cases hd : env.defs i <;> rw [hd] at h <;> first | exact h.elim | skip
    rename_i c
    obtain ⟨⟨dps, ms, f⟩, name, field⟩ := c
    refine inMap_safe (hsz _ _ _ h0) ((serOwn_safe fs f _ ms h.1).bind fun own ho => (serParents_safe ps dps h.2).bind fun up hu => .ok ?_)
    split
    · exact .cons _ (.str name) (ho.append hu)
    · exact ho.append hu
  | .dyn c (.obj ps fs), ty, h => by
    cases ty <;> first | exact (h : False).elim | skip
    unfold ValShape at h
    unfold ser
    cases hd : env.defs c <;> rw [hd] at h <;> first | exact h.elim | skip
    rename_i k
    obtain ⟨⟨dps, ms, f⟩, name, field⟩ := k
    have h0 : ValShape env E (.named c) (.obj ps fs) := by unfold ValShape; rw [hd]; exact h
    exact inMap_safe (hsz _ _ _ h0) ((serOwn_safe fs f _ ms h.1).bind fun own ho => (serParents_safe ps dps h.2).bind fun up hu =>
      .ok (.cons _ (.str name) (ho.append hu)))
  | .alt c (.obj ps fs), ty, h => by
    cases ty <;> first | exact (h : False).elim | skip
    unfold ValShape at h
    unfold ser
    cases hd : env.defs c <;> rw [hd] at h <;> first | exact h.elim | skip
    rename_i k
    obtain ⟨⟨dps, ms, f⟩, name, field⟩ := k
    have h0 : ValShape env E (.named c) (.obj ps fs) := by unfold ValShape; rw [hd]; exact h
    exact inMap_safe (hsz _ _ _ h0) ((serOwn_safe fs f _ ms h.1).bind fun own ho => (serParents_safe ps dps h.2).bind fun up hu =>
      .ok (.cons _ (.str name) (ho.append hu)))
  | .dyn _ (.int _), ty, h | .dyn _ (.flt _), ty, h | .dyn _ (.bool _), ty, h | .dyn _ (.str _), ty, h | .dyn _ .none, ty, h | .dyn _ .null, ty, h
  | .dyn _ (.some _), ty, h | .dyn _ (.ptr _), ty, h | .dyn _ (.list _), ty, h | .dyn _ (.dict _), ty, h | .dyn _ (.enum _), ty, h | .dyn _ (.dyn _ _), ty, h | .dyn _ (.alt _ _), ty, h
  | .alt _ (.int _), ty, h | .alt _ (.flt _), ty, h | .alt _ (.bool _), ty, h | .alt _ (.str _), ty, h | .alt _ .none, ty, h | .alt _ .null, ty, h
  | .alt _ (.some _), ty, h | .alt _ (.ptr _), ty, h | .alt _ (.list _), ty, h | .alt _ (.dict _), ty, h | .alt _ (.enum _), ty, h | .alt _ (.dyn _ _), ty, h | .alt _ (.alt _ _), ty, h => by
    cases ty <;> exact (h : False).elim
theorem serList_safe : ∀ (vs : List Val) (t : Ty), ValShapes env E t vs → Safe ElemCalls (serList env marker sz t vs)
  | [], t, _ => ElemCalls.nil
  | v :: vs, t, h => (ser_safe v t h.1).bind fun a ha => (serList_safe vs t h.2).bind fun b hb => .ok (.cons ha hb)
theorem serTuple_safe : ∀ (vs : List Val) (ts : List Ty), TupleShape env E ts vs → Safe ElemCalls (serTuple env marker sz ts vs)
  | [], [], _ => ElemCalls.nil
  | v :: vs, t :: ts, h => (ser_safe v t h.1).bind fun a ha => (serTuple_safe vs ts h.2).bind fun b hb => .ok (.cons ha hb)
  | [], _ :: _, h => (h : False).elim
  | _ :: _, [], h => (h : False).elim
theorem serDict_safe : ∀ (kvs : List (Bytes × Val)) (t : Ty), DictShape env E t kvs → Safe MemberCalls (serDict env marker sz t kvs)
  | [], t, _ => MemberCalls.nil
  | (k, v) :: kvs, t, h => (ser_safe v t h.1).bind fun a ha => (serDict_safe kvs t h.2).bind fun b hb => .ok (.cons k ha hb)
theorem serOwn_safe : ∀ (vs : List Val) (f : Option (Val → Bytes → Bool)) (self : Val) (ms : List Member), OwnShape env E ms vs → Safe MemberCalls (serOwn env marker sz f self ms vs)
  | [], f, self, [], _ => MemberCalls.nil
  | v :: vs, f, self, m :: ms, h => by
    unfold serOwn
    split
    · exact (ser_safe v m.ty h.1).bind fun a ha => (serOwn_safe vs f self ms h.2).bind fun b hb => .ok (.cons _ ha hb)
    · exact serOwn_safe vs f self ms h.2
  | [], _, _, _ :: _, h => (h : False).elim
  | _ :: _, _, _, [], h => (h : False).elim
theorem serParents_safe : ∀ (vs : List Val) (ds : List StructDef), ParentShape env E ds vs → Safe MemberCalls (serParents env marker sz ds vs)
  | [], [], _ => MemberCalls.nil
  | .obj ps fs :: vs, .mk dps ms f :: ds, h => (serOwn_safe fs f _ ms h.1).bind fun own ho => (serParents_safe ps dps h.2.1).bind fun up hu =>
      (serParents_safe vs ds h.2.2).bind fun b hb => .ok ((ho.append hu).append hb)
  | [], .mk _ _ _ :: _, h => (h : False).elim
  | .int _ :: _, ds, h | .flt _ :: _, ds, h | .bool _ :: _, ds, h | .str _ :: _, ds, h | .none :: _, ds, h | .null :: _, ds, h | .some _ :: _, ds, h | .ptr _ :: _, ds, h
  | .list _ :: _, ds, h | .dict _ :: _, ds, h | .enum _ :: _, ds, h | .dyn _ _ :: _, ds, h | .alt _ _ :: _, ds, h => by
    cases ds with
    | nil => exact (h : False).elim
    | cons d ds => cases d; exact (h : False).elim
  | .obj _ _ :: _, [], h => (h : False).elim
end

end

/-! ### The printers -/

theorem ycalls_safe (acc : Bytes → Bool) {c : List Cmd} (h : Calls c) : ∀ n k ss, Safe (fun x => ∃ n', x.2 = (n', k) :: ss) (YPrint.run acc c ((n, k) :: ss)) := by
  have one : ∀ (c : Cmd) n k ss, Safe (fun x => ∃ n', x.2 = (n', k) :: ss) (YPrint.step acc c ((n, k) :: ss)) →
      Safe (fun x => ∃ n', x.2 = (n', k) :: ss) (YPrint.run acc [c] ((n, k) :: ss)) := fun c n k ss h => h.bind fun x hx => .ok hx
  have em : ∀ t n (k : JPrint.Kind) ss, Safe (fun x => ∃ n', x.2 = (n', k) :: ss) (YPrint.emit acc t ((n, k) :: ss)) := by
    intro t n k ss
    show Safe _ (if acc t then _ else _)
    split
    · exact ⟨n + 1, rfl⟩
    · trivial
  refine Calls.rec (motive_1 := fun c _ => ∀ n k ss, Safe (fun x => ∃ n', x.2 = (n', k) :: ss) (YPrint.run acc c ((n, k) :: ss)))
    (motive_2 := fun c _ => ∀ n k ss, Safe (fun x => ∃ n', x.2 = (n', k) :: ss) (YPrint.run acc c ((n, k) :: ss)))
    (motive_3 := fun c _ => ∀ n k ss, Safe (fun x => ∃ n', x.2 = (n', k) :: ss) (YPrint.run acc c ((n, k) :: ss))) ?_ ?_ ?_ ?_ ?_ ?_ ?_ ?_ ?_ ?_ ?_ h
  · exact fun k i n q ss => one _ n q ss (em _ n q ss)
  · exact fun k i n q ss => one _ n q ss (em _ n q ss)
  · exact fun b n q ss => one _ n q ss (em _ n q ss)
  · exact fun s n q ss => one _ n q ss (em _ n q ss)
  · exact fun n q ss => one _ n q ss (em _ n q ss)
  · intro m b _ ih n k ss
    rw [List.cons_append, YPrint.run]
    refine Safe.bind (P := fun x => x.2 = (0, .Map) :: (n, k) :: ss) (Safe.ok rfl) ?_
    rintro ⟨w, s1⟩ hs
    cases hs
    refine Safe.bind ?_ fun x hx => .ok hx
    rw [yrun_append]
    refine (ih 0 .Map ((n, k) :: ss)).bind ?_
    rintro ⟨w, s1⟩ ⟨n', hs⟩
    cases hs
    exact Safe.bind (Safe.bind (P := fun x => ∃ n', x.2 = (n', k) :: ss) (Safe.ok ⟨n, rfl⟩) fun x hx => .ok hx) fun x hx => .ok hx
  · intro m b _ ih n k ss
    rw [List.cons_append, YPrint.run]
    refine Safe.bind (P := fun x => x.2 = (0, .Array) :: (n, k) :: ss) (Safe.ok rfl) ?_
    rintro ⟨w, s1⟩ hs
    cases hs
    refine Safe.bind ?_ fun x hx => .ok hx
    rw [yrun_append]
    refine (ih 0 .Array ((n, k) :: ss)).bind ?_
    rintro ⟨w, s1⟩ ⟨n', hs⟩
    cases hs
    exact Safe.bind (Safe.bind (P := fun x => ∃ n', x.2 = (n', k) :: ss) (Safe.ok ⟨n, rfl⟩) fun x hx => .ok hx) fun x hx => .ok hx
  · exact fun n k ss => ⟨n, rfl⟩
  · intro key a b _ _ iha ihb n k ss
    rw [List.cons_append, YPrint.run]
    refine Safe.bind (P := fun x => ∃ n', x.2 = (n', k) :: ss) ?_ ?_
    · unfold YPrint.step
      dsimp only
      split
      · trivial
      · exact em key n k ss
    rintro ⟨w, s1⟩ ⟨n', hs⟩
    cases hs
    refine Safe.bind ?_ fun x hx => .ok hx
    rw [yrun_append]
    refine (iha n' k ss).bind ?_
    rintro ⟨w, s1⟩ ⟨n', hs⟩
    cases hs
    exact (ihb n' k ss).bind fun x hx => .ok hx
  · exact fun n k ss => ⟨n, rfl⟩
  · intro a b _ _ iha ihb n k ss
    rw [yrun_append]
    refine (iha n k ss).bind ?_
    rintro ⟨w, s1⟩ ⟨n', hs⟩
    cases hs
    exact (ihb n' k ss).bind fun x hx => .ok hx

namespace BPrint

/-- There is an index for every array. -/
def Counted (s : St) : Prop := (s.conts.filter (· = .Array)).length = s.idx.length

/-- Between two values of the same container. -/
def Beside (s s' : St) : Prop := s'.conts = s.conts ∧ s'.idx.length = s.idx.length

theorem Beside.counted {s s' : St} (h : Beside s s') (hc : Counted s) : Counted s' := by
  unfold Counted
  rw [h.1, h.2]
  exact hc

theorem writeKey_safe {s : St} (hc : Counted s) (t : Byte) (n : Option Nat) : Safe (fun x => Beside s x.2) (writeKey t n s) := by
  unfold writeKey
  split
  · rename_i cs hcs
    split
    · rename_i i is hi
      exact ⟨rfl, by simp [hi]⟩
    · rename_i hi
      unfold Counted at hc
      rw [hcs, hi] at hc
      simp at hc
  · exact ⟨rfl, rfl⟩
  · cases n <;> exact ⟨rfl, rfl⟩

theorem element_safe {s : St} (hc : Counted s) (t : Byte) (b : List Write) : Safe (fun x => Beside s x.2) (element t b s) :=
  (writeKey_safe hc t _).bind fun _ hx => .ok hx

theorem calls_safe {c : List Cmd} (h : Calls c) : ∀ s, Counted s → Safe (fun x => Beside s x.2) (run c s) := by
  have one : ∀ (c : Cmd) (s : St), Safe (fun x => Beside s x.2) (step c s) → Safe (fun x => Beside s x.2) (run [c] s) :=
    fun c s h => h.bind fun x hx => .ok hx
  refine Calls.rec (motive_1 := fun c _ => ∀ s, Counted s → Safe (fun x => Beside s x.2) (run c s))
    (motive_2 := fun c _ => ∀ s, Counted s → s.conts.head? = some .Map → Safe (fun x => Beside s x.2) (run c s))
    (motive_3 := fun c _ => ∀ s, Counted s → Safe (fun x => Beside s x.2) (run c s)) ?_ ?_ ?_ ?_ ?_ ?_ ?_ ?_ ?_ ?_ ?_ h
  · exact fun k i s hc => one _ s (element_safe hc _ _)
  · exact fun k i s hc => one _ s (element_safe hc _ _)
  · exact fun b s hc => one _ s (element_safe hc _ _)
  · exact fun b s hc => one _ s (element_safe hc _ _)
  · exact fun s hc => one _ s (element_safe hc _ _)
  · intro m b _ ih s hc
    rw [List.cons_append, run]
    refine Safe.bind (P := fun x => ∃ s1, Beside s s1 ∧ x.2 = { s1 with conts := .Map :: s1.conts }) ?_ ?_
    · exact (writeKey_safe hc _ _).bind fun x hx => .ok ⟨x.2, hx, rfl⟩
    rintro ⟨w, s1⟩ ⟨s2, hb, hs⟩
    dsimp only at hs ⊢
    subst hs
    refine Safe.bind ?_ fun x hx => .ok hx
    rw [bson_run_append]
    have hc2 : Counted { s2 with conts := .Map :: s2.conts } := by
      have := hb.counted hc
      unfold Counted at this ⊢
      simpa using this
    refine (ih _ hc2 rfl).bind ?_
    rintro ⟨w, s3⟩ ⟨h1, h2⟩
    dsimp only at h1 h2 ⊢
    refine Safe.bind (P := fun x => Beside s x.2) (one' _ _ _ ?_) fun x hx => .ok hx
    unfold step
    dsimp only
    rw [h1]
    exact ⟨hb.1, h2.trans hb.2⟩
  · intro m b _ ih s hc
    rw [List.cons_append, run]
    refine Safe.bind (P := fun x => ∃ s1, Beside s s1 ∧ x.2 = { s1 with conts := .Array :: s1.conts, idx := 0 :: s1.idx }) ?_ ?_
    · exact (writeKey_safe hc _ _).bind fun x hx => .ok ⟨x.2, hx, rfl⟩
    rintro ⟨w, s1⟩ ⟨s2, hb, hs⟩
    dsimp only at hs ⊢
    subst hs
    refine Safe.bind ?_ fun x hx => .ok hx
    rw [bson_run_append]
    have hc2 : Counted { s2 with conts := .Array :: s2.conts, idx := 0 :: s2.idx } := by
      have := hb.counted hc
      unfold Counted at this ⊢
      simpa using this
    refine (ih _ hc2).bind ?_
    rintro ⟨w, s3⟩ ⟨h1, h2⟩
    dsimp only at h1 h2 ⊢
    refine Safe.bind (P := fun x => Beside s x.2) (one' _ _ _ ?_) fun x hx => .ok hx
    unfold step
    dsimp only
    rw [h1]
    cases hi : s3.idx with
    | nil => rw [hi] at h2; simp at h2
    | cons i is =>
      rw [hi] at h2
      simp only [List.length_cons] at h2
      exact ⟨hb.1, by have := hb.2; dsimp only; omega⟩
  · exact fun s hc _ => ⟨rfl, rfl⟩
  · intro key a b _ _ iha ihb s hc hm
    rw [List.cons_append, run]
    refine Safe.bind (P := fun x => Beside s x.2) ?_ ?_
    · unfold step
      dsimp only
      cases hs : s.conts with
      | nil => rw [hs] at hm; cases hm
      | cons c cs =>
        rw [hs] at hm
        cases hm
        exact ⟨hs.symm ▸ rfl, rfl⟩
    rintro ⟨w, s1⟩ h1
    dsimp only at h1 ⊢
    refine Safe.bind ?_ fun x hx => .ok hx
    rw [bson_run_append]
    refine (iha s1 (h1.counted hc)).bind ?_
    rintro ⟨w, s2⟩ h2
    dsimp only at h2 ⊢
    have h3 : Beside s s2 := ⟨h2.1.trans h1.1, h2.2.trans h1.2⟩
    exact (ihb s2 (h3.counted hc) (by rw [h3.1]; exact hm)).bind fun x hx => .ok ⟨hx.1.trans h3.1, hx.2.trans h3.2⟩
  · exact fun s hc => ⟨rfl, rfl⟩
  · intro a b _ _ iha ihb s hc
    rw [bson_run_append]
    refine (iha s hc).bind ?_
    rintro ⟨w, s2⟩ h3
    dsimp only at h3 ⊢
    exact (ihb s2 (h3.counted hc)).bind fun x hx => .ok ⟨hx.1.trans h3.1, hx.2.trans h3.2⟩
where
  one' (c : Cmd) (s s' : St) (h : Safe (fun x => Beside s x.2) (step c s')) : Safe (fun x => Beside s x.2) (run [c] s') := h.bind fun x hx => .ok hx

section
variable (env : Env) (marker : Bytes) (info : SizeInfo)

/-- The enumerator has a name. -/
def Has (table : List (Int × Bytes)) (n : Int) : Prop := n ∈ table.map Prod.fst

theorem enumName_has {table : List (Int × Bytes)} {n : Int} (h : Has table n) : ∃ s, enumName table n = some s := by
  unfold Has at h
  unfold enumName
  induction table with
  | nil => cases h
  | cons p t ih =>
    obtain ⟨k, s⟩ := p
    rw [List.lookup_cons]
    by_cases hk : n = k
    · subst hk; simp
    · have : (n == k) = false := by simpa using hk
      rw [this]
      simp only [List.map_cons, List.mem_cons] at h
      exact ih (h.resolve_left hk)

mutual
theorem psize_safe : ∀ (v : Val) (p : Bool) (ty : Ty), ValShape env Has ty v → Safe (fun _ => True) (psize env marker info p ty v)
  | .int i, p, ty, h => by cases ty <;> first | exact (h : False).elim | trivial
  | .flt x, p, ty, h => by cases ty <;> first | exact (h : False).elim | trivial
  | .bool b, p, ty, h => by cases ty <;> first | exact (h : False).elim | trivial
  | .str s, p, ty, h => by cases ty <;> first | exact (h : False).elim | trivial
  | .none, p, ty, h => by cases ty <;> first | exact (h : False).elim | trivial
  | .null, p, ty, h => by cases ty <;> first | exact (h : False).elim | trivial
  | .some v, p, ty, h => by
    cases ty <;> first | exact (h : False).elim | skip
    exact psize_safe v p _ h
  | .ptr v, p, ty, h => by
    cases ty <;> first | exact (h : False).elim | skip
    exact psize_safe v true _ h
  | .list vs, p, ty, h => by
    cases ty <;> first | exact (h : False).elim | skip
    · exact (psizeList_safe vs _ h).bind fun _ _ => trivial
    · exact (psizeList_safe vs _ h).bind fun _ _ => trivial
    · rename_i i
      unfold ValShape at h
      unfold psize
      cases hd : env.defs i <;> rw [hd] at h <;> first | exact h.elim | skip
      exact (psizeTuple_safe vs _ h).bind fun _ _ => trivial
  | .dict kvs, p, ty, h => by
    cases ty <;> first | exact (h : False).elim | skip
    · exact (psizeDict_safe kvs _ h).bind fun _ _ => trivial
    · exact (psizeDict_safe kvs _ h).bind fun _ _ => trivial
    · exact (psizeDict_safe kvs _ h).bind fun _ _ => trivial
  | .enum n, p, ty, h => by
    cases ty <;> first | exact (h : False).elim | skip
    rename_i i
    unfold ValShape at h
    unfold psize
    cases hd : env.defs i <;> rw [hd] at h <;> first | exact h.elim | skip
    obtain ⟨s, e⟩ := enumName_has h
    dsimp only
    rw [e]
    trivial
  | .obj ps fs, p, ty, h => by
    cases ty <;> first | exact (h : False).elim | skip
    rename_i i
    unfold ValShape at h
    unfold psize
    cases hd : env.defs i <;> rw [hd] at h <;> first | exact h.elim | skip
    rename_i c
    obtain ⟨⟨dps, ms, f⟩, name, field⟩ := c
    dsimp only
    split
    · exact (psizePair_safe fs ms h.1).bind fun _ _ => trivial
    · refine (psizeOwn_safe fs f _ ms h.1).bind fun own _ => (psizeParents_safe ps dps h.2).bind fun up _ => ?_
      (repeat' split) <;> trivial
  | .dyn c (.obj ps fs), p, ty, h => by
    cases ty <;> first | exact (h : False).elim | skip
    unfold ValShape at h
    unfold psize
    cases hd : env.defs c <;> rw [hd] at h <;> first | exact h.elim | skip
    rename_i k
    obtain ⟨⟨dps, ms, f⟩, name, field⟩ := k
    exact (psizeOwn_safe fs f _ ms h.1).bind fun own _ => (psizeParents_safe ps dps h.2).bind fun up _ => trivial
  | .alt c (.obj ps fs), p, ty, h => by
    cases ty <;> first | exact (h : False).elim | skip
    unfold ValShape at h
    unfold psize
    cases hd : env.defs c <;> rw [hd] at h <;> first | exact h.elim | skip
    rename_i k
    obtain ⟨⟨dps, ms, f⟩, name, field⟩ := k
    refine (psizeOwn_safe fs f _ ms h.1).bind fun own _ => (psizeParents_safe ps dps h.2).bind fun up _ => ?_
    dsimp only
    (repeat' split) <;> trivial
  | .dyn _ (.int _), _, ty, h | .dyn _ (.flt _), _, ty, h | .dyn _ (.bool _), _, ty, h | .dyn _ (.str _), _, ty, h | .dyn _ .none, _, ty, h | .dyn _ .null, _, ty, h
  | .dyn _ (.some _), _, ty, h | .dyn _ (.ptr _), _, ty, h | .dyn _ (.list _), _, ty, h | .dyn _ (.dict _), _, ty, h | .dyn _ (.enum _), _, ty, h | .dyn _ (.dyn _ _), _, ty, h | .dyn _ (.alt _ _), _, ty, h
  | .alt _ (.int _), _, ty, h | .alt _ (.flt _), _, ty, h | .alt _ (.bool _), _, ty, h | .alt _ (.str _), _, ty, h | .alt _ .none, _, ty, h | .alt _ .null, _, ty, h
  | .alt _ (.some _), _, ty, h | .alt _ (.ptr _), _, ty, h | .alt _ (.list _), _, ty, h | .alt _ (.dict _), _, ty, h | .alt _ (.enum _), _, ty, h | .alt _ (.dyn _ _), _, ty, h | .alt _ (.alt _ _), _, ty, h => by
    cases ty <;> exact (h : False).elim
theorem psizeList_safe : ∀ (vs : List Val) (t : Ty), ValShapes env Has t vs → Safe (fun _ => True) (psizeList env marker info t vs)
  | [], t, _ => trivial
  | v :: vs, t, h => (psize_safe v false t h.1).bind fun a _ => (psizeList_safe vs t h.2).bind fun b _ => trivial
theorem psizeTuple_safe : ∀ (vs : List Val) (ts : List Ty), TupleShape env Has ts vs → Safe (fun _ => True) (psizeTuple env marker info ts vs)
  | [], [], _ => trivial
  | v :: vs, t :: ts, h => (psize_safe v false t h.1).bind fun a _ => (psizeTuple_safe vs ts h.2).bind fun b _ => trivial
  | [], _ :: _, h => (h : False).elim
  | _ :: _, [], h => (h : False).elim
theorem psizeDict_safe : ∀ (kvs : List (Bytes × Val)) (t : Ty), DictShape env Has t kvs → Safe (fun _ => True) (psizeDict env marker info t kvs)
  | [], t, _ => trivial
  | (k, v) :: kvs, t, h => (psize_safe v false t h.1).bind fun a _ => (psizeDict_safe kvs t h.2).bind fun b _ => trivial
theorem psizePair_safe : ∀ (vs : List Val) (ms : List Member), OwnShape env Has ms vs → Safe (fun _ => True) (psizePair env marker info ms vs)
  | [], [], _ => trivial
  | v :: vs, m :: ms, h => (psize_safe v false m.ty h.1).bind fun a _ => (psizePair_safe vs ms h.2).bind fun b _ => trivial
  | [], _ :: _, h => (h : False).elim
  | _ :: _, [], h => (h : False).elim
theorem psizeOwn_safe : ∀ (vs : List Val) (f : Option (Val → Bytes → Bool)) (self : Val) (ms : List Member), OwnShape env Has ms vs →
    Safe (fun _ => True) (psizeOwn env marker info f self ms vs)
  | [], f, self, [], _ => trivial
  | v :: vs, f, self, m :: ms, h => by
    unfold psizeOwn
    split
    · exact (psize_safe v false m.ty h.1).bind fun a _ => (psizeOwn_safe vs f self ms h.2).bind fun b _ => trivial
    · exact psizeOwn_safe vs f self ms h.2
  | [], _, _, _ :: _, h => (h : False).elim
  | _ :: _, _, _, [], h => (h : False).elim
theorem psizeParents_safe : ∀ (vs : List Val) (ds : List StructDef), ParentShape env Has ds vs → Safe (fun _ => True) (psizeParents env marker info ds vs)
  | [], [], _ => trivial
  | .obj ps fs :: vs, .mk dps ms f :: ds, h => (psizeOwn_safe fs f _ ms h.1).bind fun own _ => (psizeParents_safe ps dps h.2.1).bind fun up _ =>
      (psizeParents_safe vs ds h.2.2).bind fun b _ => trivial
  | [], .mk _ _ _ :: _, h => (h : False).elim
  | .int _ :: _, ds, h | .flt _ :: _, ds, h | .bool _ :: _, ds, h | .str _ :: _, ds, h | .none :: _, ds, h | .null :: _, ds, h | .some _ :: _, ds, h | .ptr _ :: _, ds, h
  | .list _ :: _, ds, h | .dict _ :: _, ds, h | .enum _ :: _, ds, h | .dyn _ _ :: _, ds, h | .alt _ _ :: _, ds, h => by
    cases ds with
    | nil => exact (h : False).elim
    | cons d ds => cases d; exact (h : False).elim
  | .obj _ _ :: _, [], h => (h : False).elim
end

end

end BPrint


/-! ### Values of a type -/

theorem obj_of_class {env : Env} {c : Nat} {k : ClassDef} (hc : env.defs c = .cls k) {v : Val} (h : HasType env (.named c) v) : ∃ ps fs, v = .obj ps fs := by
  cases v with
  | obj ps fs => exact ⟨_, _, rfl⟩
  | _ =>
    unfold HasType at h
    first
    | exact h.elim
    | (rw [hc] at h; exact (h : False).elim)

section
variable {env : Env} (hd : ∀ c b, env.derives c b = true → ∃ k, env.defs c = .cls k) (ha : ∀ i alts, env.defs i = .variant alts → ∀ c ∈ alts, ∃ k, env.defs c = .cls k)
include hd ha

mutual
theorem typed_shape : ∀ (v : Val) (ty : Ty), HasType env ty v → NamedOfType env ty v
  | .int i, ty, h => by cases ty <;> first | exact (h : False).elim | exact trivial
  | .flt x, ty, h => by cases ty <;> first | exact (h : False).elim | exact trivial
  | .bool b, ty, h => by cases ty <;> first | exact (h : False).elim | exact trivial
  | .str s, ty, h => by cases ty <;> first | exact (h : False).elim | exact trivial
  | .none, ty, h => by cases ty <;> first | exact (h : False).elim | exact trivial
  | .null, ty, h => by cases ty <;> first | exact (h : False).elim | exact trivial
  | .some v, ty, h => by
    cases ty <;> first | exact (h : False).elim | skip
    exact typed_shape v _ h
  | .ptr v, ty, h => by
    cases ty <;> first | exact (h : False).elim | skip
    exact typed_shape v _ h
  | .list vs, ty, h => by
    cases ty <;> first | exact (h : False).elim | skip
    · exact typed_shapes vs _ h.1
    · exact typed_shapes vs _ h.2
    · rename_i i
      unfold HasType at h
      unfold NamedOfType ValShape
      cases e : env.defs i <;> rw [e] at h <;> first | exact h.elim | skip
      exact typed_tuple vs _ h
  | .dict kvs, ty, h => by
    cases ty <;> first | exact (h : False).elim | skip
    · exact typed_dict kvs _ h.1
    · exact typed_dict kvs _ h.1
    · exact typed_dict kvs _ h.1
  | .enum n, ty, h => by
    cases ty <;> first | exact (h : False).elim | skip
    rename_i i
    unfold HasType at h
    unfold NamedOfType ValShape
    cases e : env.defs i <;> rw [e] at h <;> first | exact h.elim | skip
    exact h
  | .obj ps fs, ty, h => by
    cases ty <;> first | exact (h : False).elim | skip
    rename_i i
    unfold HasType at h
    unfold NamedOfType ValShape
    cases e : env.defs i <;> rw [e] at h <;> first | exact h.elim | skip
    rename_i c
    obtain ⟨⟨dps, ms, f⟩, name, field⟩ := c
    exact ⟨typed_own fs ms h.1, typed_parents ps dps h.2⟩
  | .dyn c v, ty, h => by
    cases ty <;> first | exact (h : False).elim | skip
    unfold HasType at h
    obtain ⟨k, hk⟩ := hd c _ h.1
    have hv := typed_shape v (.named c) h.2
    obtain ⟨ps, fs, rfl⟩ := obj_of_class hk h.2
    unfold NamedOfType ValShape at hv ⊢
    exact hv
  | .alt c v, ty, h => by
    cases ty <;> first | exact (h : False).elim | skip
    rename_i i
    unfold HasType at h
    cases e : env.defs i <;> rw [e] at h <;> first | exact h.elim | skip
    obtain ⟨k, hk⟩ := ha i _ e c h.1
    have hv := typed_shape v (.named c) h.2
    obtain ⟨ps, fs, rfl⟩ := obj_of_class hk h.2
    unfold NamedOfType ValShape at hv ⊢
    exact hv
theorem typed_shapes : ∀ (vs : List Val) (t : Ty), HaveType env t vs → ValShapes env (fun table n => n ∈ table.map Prod.fst) t vs
  | [], t, _ => trivial
  | v :: vs, t, h => ⟨typed_shape v t h.1, typed_shapes vs t h.2⟩
theorem typed_tuple : ∀ (vs : List Val) (ts : List Ty), TupleHas env ts vs → TupleShape env (fun table n => n ∈ table.map Prod.fst) ts vs
  | [], [], _ => trivial
  | v :: vs, t :: ts, h => ⟨typed_shape v t h.1, typed_tuple vs ts h.2⟩
  | [], _ :: _, h => (h : False).elim
  | _ :: _, [], h => (h : False).elim
theorem typed_dict : ∀ (kvs : List (Bytes × Val)) (t : Ty), DictHas env t kvs → DictShape env (fun table n => n ∈ table.map Prod.fst) t kvs
  | [], t, _ => trivial
  | (k, v) :: kvs, t, h => ⟨typed_shape v t h.1, typed_dict kvs t h.2⟩
theorem typed_own : ∀ (vs : List Val) (ms : List Member), OwnHave env ms vs → OwnShape env (fun table n => n ∈ table.map Prod.fst) ms vs
  | [], [], _ => trivial
  | v :: vs, m :: ms, h => ⟨typed_shape v m.ty h.1, typed_own vs ms h.2⟩
  | [], _ :: _, h => (h : False).elim
  | _ :: _, [], h => (h : False).elim
theorem typed_parents : ∀ (vs : List Val) (ds : List StructDef), ParentsHave env ds vs → ParentShape env (fun table n => n ∈ table.map Prod.fst) ds vs
  | [], [], _ => trivial
  | .obj ps fs :: vs, .mk dps ms f :: ds, h => ⟨typed_own fs ms h.1, typed_parents ps dps h.2.1, typed_parents vs ds h.2.2⟩
  | [], .mk _ _ _ :: _, h => (h : False).elim
  | .int _ :: _, ds, h | .flt _ :: _, ds, h | .bool _ :: _, ds, h | .str _ :: _, ds, h | .none :: _, ds, h | .null :: _, ds, h | .some _ :: _, ds, h | .ptr _ :: _, ds, h
  | .list _ :: _, ds, h | .dict _ :: _, ds, h | .enum _ :: _, ds, h | .dyn _ _ :: _, ds, h | .alt _ _ :: _, ds, h => by
    cases ds with
    | nil => exact (h : False).elim
    | cons d ds => cases d; exact (h : False).elim
  | .obj _ _ :: _, [], h => (h : False).elim
end
end

end Thors
