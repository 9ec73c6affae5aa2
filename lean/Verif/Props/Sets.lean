import Verif.Props.Samples
import Verif.Props.RoundTrip
import Verif.Spec.Sets
import Verif.Proofs.Sets
/-
C71–C75: sets, multisets, unordered sets, and maps with keys that are not strings.
-/
namespace Thors.Props
open Thors Spec StrIn

/-- An array in a document together with the values its elements are to have; `elemsAre` says that they have them (each imported
into a new element of the container). -/
def elemsAre (env : Env) (cfg : Cfg) (conv : Bool) (t : Ty) (es : List (JTree × Val)) : Prop :=
  ∀ e ∈ es, imp (jsem conv) env cfg e.1 t (t.default env) = .ok e.2

theorem import_seq (env : Env) (cfg : Cfg) (conv : Bool) (k : SeqKind) (t : Ty) (old : List Val) (es : List (JTree × Val)) (text : Bytes)
    (hd : JDoc codePair (.arr (es.map Prod.fst)) text) (he : elemsAre env cfg conv t es) :
    jsonImport env cfg conv (.seq k t) (.list old) text = .ok (.list ((es.map Prod.snd).foldl (k.insert env) old)) := by
  have himp : imp (jsem conv) env cfg (.arr (es.map Prod.fst)) (.seq k t) (.list old) = .ok (.list ((es.map Prod.snd).foldl (k.insert env) old)) := by
    rw [imp, impArr, impVec_fold (jsem conv) env cfg k t es he]
  rw [jsonImport_doc env cfg hd _ _ (.inr (by rw [himp]; intro h; cases h)), himp]

/-! ### C71 -/

/-- C71. An array is imported into a `std::set` (that may have elements already): the set is in ascending order, and its elements
are exactly those old and new elements that have no equivalent one before them (old ones first, then in the order of the
document). -/
theorem C71_set_import (env : Env) (cfg : Cfg) (conv : Bool) (c : Nat) (t : Ty) (old : List Val) (es : List (JTree × Val)) (text : Bytes)
    (hc : StrictWeak (env.less c)) (ho : old.Pairwise (fun a b => env.less c a b = true))
    (hd : JDoc codePair (.arr (es.map Prod.fst)) text) (he : elemsAre env cfg conv t es) :
    ∃ r, jsonImport env cfg conv (.seq (.sorted c) t) (.list old) text = .ok (.list r) ∧
      r.Pairwise (fun a b => env.less c a b = true) ∧
      ∀ x, x ∈ r ↔ FirstOf (equivalent (env.less c)) x (old ++ es.map Prod.snd) := by
  refine ⟨_, import_seq env cfg conv _ t old es text hd he, ?_⟩
  refine insertAll_firstOf (equivalent_equality hc) _ (fun l => l.Pairwise (fun a b => env.less c a b = true))
    (fun acc v h => (setInsert_spec hc v acc h).1) (fun acc v h => (setInsert_spec hc v acc h).2) _ old old ho fun x => ?_
  exact (firstOf_distinct (ho.imp fun {a b} h => by simp [equivalent, h]) x).symm

/-- C71, corollary: nothing is lost; every element of the document has an equivalent one in the set, and only elements of the
document or the old set are in it. -/
theorem C71_nothing_lost (env : Env) (cfg : Cfg) (conv : Bool) (c : Nat) (t : Ty) (old : List Val) (es : List (JTree × Val)) (text : Bytes)
    (hc : StrictWeak (env.less c)) (ho : old.Pairwise (fun a b => env.less c a b = true))
    (hd : JDoc codePair (.arr (es.map Prod.fst)) text) (he : elemsAre env cfg conv t es) :
    ∃ r, jsonImport env cfg conv (.seq (.sorted c) t) (.list old) text = .ok (.list r) ∧
      (∀ x ∈ old ++ es.map Prod.snd, ∃ y ∈ r, equivalent (env.less c) y x = true) ∧ (∀ x ∈ old, x ∈ r) ∧ ∀ x ∈ r, x ∈ old ++ es.map Prod.snd := by
  obtain ⟨r, h1, -, h3⟩ := C71_set_import env cfg conv c t old es text hc ho hd he
  refine ⟨r, h1, fun x hx => ?_, fun x hx => ?_, fun x hx => firstOf_mem ((h3 x).1 hx)⟩
  · obtain ⟨y, hy, e⟩ := firstOf_exists (equivalent_equality hc) _ _ rfl x hx
    exact ⟨y, (h3 y).2 hy, e⟩
  · obtain ⟨pre, post, rfl⟩ := List.append_of_mem hx
    refine (h3 x).2 ⟨pre, post ++ es.map Prod.snd, by simp, fun y hy => ?_⟩
    have := (List.pairwise_append.1 ho).2.2 y hy x (by simp)
    simp [equivalent, this]

/-! ### C72 -/

/-- C72. An array is imported into a `std::multiset`: all elements are kept, in ascending order, equivalent ones in the order of
the document (behind old ones). -/
theorem C72_multiset_import (env : Env) (cfg : Cfg) (conv : Bool) (c : Nat) (t : Ty) (old : List Val) (es : List (JTree × Val)) (text : Bytes)
    (hc : StrictWeak (env.less c)) (ho : old.Pairwise (fun a b => env.less c b a = false))
    (hd : JDoc codePair (.arr (es.map Prod.fst)) text) (he : elemsAre env cfg conv t es) :
    ∃ r, jsonImport env cfg conv (.seq (.multi c) t) (.list old) text = .ok (.list r) ∧
      r.Pairwise (fun a b => env.less c b a = false) ∧ r.Perm (old ++ es.map Prod.snd) ∧
      ∀ x, r.filter (equivalent (env.less c) x) = (old ++ es.map Prod.snd).filter (equivalent (env.less c) x) :=
  ⟨_, import_seq env cfg conv _ t old es text hd he, multisetInsert_all hc _ old ho⟩

/-! ### C73 -/

/-- C73. An array is imported into a `std::unordered_set`: no two elements are equal, and its elements are exactly those old and
new elements that have no equal one before them. -/
theorem C73_unordered_set_import (env : Env) (cfg : Cfg) (conv : Bool) (c : Nat) (t : Ty) (old : List Val) (es : List (JTree × Val)) (text : Bytes)
    (hc : Equality (env.less c)) (ho : old.Pairwise (fun a b => env.less c a b = false))
    (hd : JDoc codePair (.arr (es.map Prod.fst)) text) (he : elemsAre env cfg conv t es) :
    ∃ r, jsonImport env cfg conv (.seq (.hashed c) t) (.list old) text = .ok (.list r) ∧
      r.Pairwise (fun a b => env.less c a b = false) ∧ ∀ x, x ∈ r ↔ FirstOf (env.less c) x (old ++ es.map Prod.snd) := by
  refine ⟨_, import_seq env cfg conv _ t old es text hd he, ?_⟩
  exact insertAll_firstOf hc _ (fun l => l.Pairwise (fun a b => env.less c a b = false))
    (fun acc v h => (hashInsert_spec acc v h).1) (fun acc v h => (hashInsert_spec acc v h).2) _ old old ho
    fun x => (firstOf_distinct ho x).symm

/-! ### C74 -/

/-- A comparison that tells all elements apart: only equal ones are equivalent. -/
def Total (lt : Val → Val → Bool) (l : List Val) : Prop := ∀ a ∈ l, ∀ b ∈ l, equivalent lt a b = true → a = b

theorem sorted_ext {lt : Val → Val → Bool} (h : StrictWeak lt) : ∀ (a b : List Val), a.Pairwise (fun a b => lt a b = true) →
    b.Pairwise (fun a b => lt a b = true) → (∀ x, x ∈ a ↔ x ∈ b) → a = b
  | [], [], _, _, _ => rfl
  | [], y :: b, _, _, hm => absurd ((hm y).2 (by simp)) (by simp)
  | x :: a, [], _, _, hm => absurd ((hm x).1 (by simp)) (by simp)
  | x :: a, y :: b, ha, hb, hm => by
    obtain ⟨ha1, ha2⟩ := List.pairwise_cons.1 ha
    obtain ⟨hb1, hb2⟩ := List.pairwise_cons.1 hb
    have hxy : x = y := by
      rcases List.mem_cons.1 ((hm x).1 (by simp)) with e | h1
      · exact e
      rcases List.mem_cons.1 ((hm y).2 (by simp)) with e | h2
      · exact e.symm
      have := strictWeak_asymm h (hb1 x h1)
      rw [ha1 y h2] at this; cases this
    subst hxy
    have : a = b := sorted_ext h a b ha2 hb2 fun z => by
      have hz := hm z
      simp only [List.mem_cons] at hz
      constructor
      · intro hza
        rcases hz.1 (.inr hza) with rfl | hz
        · have := ha1 z hza; rw [h.irrefl] at this; cases this
        · exact hz
      · intro hzb
        rcases hz.2 (.inr hzb) with rfl | hz
        · have := hb1 z hzb; rw [h.irrefl] at this; cases this
        · exact hz
    rw [this]

theorem firstOf_total {like : Val → Val → Bool} (x : Val) (l : List Val) (ht : ∀ a ∈ l, ∀ b ∈ l, like a b = true → a = b) : FirstOf like x l ↔ x ∈ l := by
  refine ⟨firstOf_mem, fun h => ?_⟩
  obtain ⟨n, l, hl, hx⟩ : ∃ n, ∃ l' : List Val, l'.length = n ∧ l = l' := ⟨_, l, rfl, rfl⟩
  subst hx
  induction n generalizing l with
  | zero => cases l with
    | nil => cases h
    | cons _ _ => cases hl
  | succ n ih =>
    rcases List.eq_nil_or_concat l with rfl | ⟨l, w, rfl⟩
    · cases h
    simp only [List.concat_eq_append] at h hl ⊢
    by_cases hx : x ∈ l
    · exact firstOf_snoc.2 (.inl (ih l (fun a ha b hb => ht a (by simp [ha]) b (by simp [hb])) hx (by simpa using hl)))
    · rcases List.mem_append.1 h with h | h
      · exact absurd h hx
      · simp only [List.mem_singleton] at h
        subst h
        refine firstOf_snoc.2 (.inr ⟨rfl, fun y hy => ?_⟩)
        cases hc : like y x with
        | false => rfl
        | true => exact absurd (ht y (by simp [hy]) x (by simp) hc ▸ hy) hx

/-- C74. The order of the elements in the document, and how often each is repeated, do not matter for a `std::set`: two documents with the same
elements give the same set. -/
theorem C74_set_order_irrelevant (env : Env) (cfg : Cfg) (conv : Bool) (c : Nat) (t : Ty) (old : List Val) (es es' : List (JTree × Val)) (text text' : Bytes)
    (hc : StrictWeak (env.less c)) (ht : Total (env.less c) (old ++ es.map Prod.snd)) (ho : old.Pairwise (fun a b => env.less c a b = true))
    (hd : JDoc codePair (.arr (es.map Prod.fst)) text) (he : elemsAre env cfg conv t es)
    (hd' : JDoc codePair (.arr (es'.map Prod.fst)) text') (he' : elemsAre env cfg conv t es')
    (hs : ∀ v, v ∈ es.map Prod.snd ↔ v ∈ es'.map Prod.snd) :
    jsonImport env cfg conv (.seq (.sorted c) t) (.list old) text = jsonImport env cfg conv (.seq (.sorted c) t) (.list old) text' := by
  obtain ⟨r, h1, h2, h3⟩ := C71_set_import env cfg conv c t old es text hc ho hd he
  obtain ⟨r', h1', h2', h3'⟩ := C71_set_import env cfg conv c t old es' text' hc ho hd' he'
  have hm : ∀ v, (v ∈ old ++ es'.map Prod.snd) = (v ∈ old ++ es.map Prod.snd) := fun v => by simp only [List.mem_append, hs]
  rw [h1, h1', sorted_ext hc r r' h2 h2' fun x => by
    rw [h3, h3', firstOf_total _ _ ht, firstOf_total _ _ (fun a ha b hb => ht a (hm a ▸ ha) b (hm b ▸ hb)), List.mem_append, List.mem_append, hs]]

theorem multi_ext {lt : Val → Val → Bool} (h : StrictWeak lt) : ∀ (a b : List Val), Total lt a → a.Pairwise (fun a b => lt b a = false) →
    b.Pairwise (fun a b => lt b a = false) → a.Perm b → a = b
  | [], b, _, _, _, hp => hp.nil_eq
  | x :: a, [], _, _, _, hp => absurd hp.length_eq (by simp)
  | x :: a, y :: b, ht, ha, hb, hp => by
    obtain ⟨ha1, ha2⟩ := List.pairwise_cons.1 ha
    obtain ⟨hb1, hb2⟩ := List.pairwise_cons.1 hb
    have hxy : x = y := by
      rcases List.mem_cons.1 (hp.mem_iff.1 (List.mem_cons_self (a := x) (l := a))) with e | h1
      · exact e
      rcases List.mem_cons.1 (hp.mem_iff.2 (List.mem_cons_self (a := y) (l := b))) with e | h2
      · exact e.symm
      exact ht x (by simp) y (by simp [h2]) (by simp [equivalent, hb1 x h1, ha1 y h2])
    subst hxy
    rw [multi_ext h a b (fun u hu v hv => ht u (by simp [hu]) v (by simp [hv])) ha2 hb2 (List.perm_cons _ |>.1 hp)]

/-- C74, multisets: the order of the elements in the document does not matter. -/
theorem C74_multiset_order_irrelevant (env : Env) (cfg : Cfg) (conv : Bool) (c : Nat) (t : Ty) (old : List Val) (es es' : List (JTree × Val)) (text text' : Bytes)
    (hc : StrictWeak (env.less c)) (ht : Total (env.less c) (old ++ es.map Prod.snd)) (ho : old.Pairwise (fun a b => env.less c b a = false))
    (hd : JDoc codePair (.arr (es.map Prod.fst)) text) (he : elemsAre env cfg conv t es)
    (hd' : JDoc codePair (.arr (es'.map Prod.fst)) text') (he' : elemsAre env cfg conv t es')
    (hs : (es.map Prod.snd).Perm (es'.map Prod.snd)) :
    jsonImport env cfg conv (.seq (.multi c) t) (.list old) text = jsonImport env cfg conv (.seq (.multi c) t) (.list old) text' := by
  obtain ⟨r, h1, h2, h3, -⟩ := C72_multiset_import env cfg conv c t old es text hc ho hd he
  obtain ⟨r', h1', h2', h3', -⟩ := C72_multiset_import env cfg conv c t old es' text' hc ho hd' he'
  rw [h1, h1', multi_ext hc r r' (fun a ha b hb => ht a (h3.mem_iff.1 ha) b (h3.mem_iff.1 hb)) h2 h2' ((h3.trans (hs.append_left old)).trans h3'.symm)]

/-! ### C75 -/

/-- An element of a `std::map` whose keys are not strings, in a document: an object with the members `first` and `second`; and
the key and the value they are to have. -/
structure PairEntry where
  keyTree : JTree
  valTree : JTree
  key : Val
  val : Val

def PairEntry.tree (e : PairEntry) : JTree := .obj [(Samples.jstr b!"first", e.keyTree), (Samples.jstr b!"second", e.valTree)]

theorem unpack : ∀ r : List Val, (∀ x ∈ r, ∃ p : Val × Val, x = .obj [] [p.1, p.2]) → ∃ q : List (Val × Val), r = q.map fun p => .obj [] [p.1, p.2]
  | [], _ => ⟨[], rfl⟩
  | x :: r, h => by
    obtain ⟨p, rfl⟩ := h x (by simp)
    obtain ⟨q, rfl⟩ := unpack r fun x hx => h x (by simp [hx])
    exact ⟨p :: q, rfl⟩

/-- C75. An array of objects with `first` and `second` is imported into a `std::map` whose keys are not strings: the elements are
in the order of their keys, and for keys that are repeated in the document the first value is kept (not the last, as for maps
with strings as keys, C39). -/
theorem C75_map_first_wins (env : Env) (cfg : Cfg) (conv : Bool) (c i : Nat) (kt vt : Ty) (lt : Val → Val → Bool) (k0 v0 : Val) (name : Bytes)
    (hdef : env.defs i = .cls ⟨.mk [] [⟨b!"first", b!"first", kt⟩, ⟨b!"second", b!"second", vt⟩] none, name, none⟩)
    (hdf : env.dflt i = .obj [] [k0, v0])
    (hc : StrictWeak (env.less c)) (hcmp : ∀ k v k' v', env.less c (.obj [] [k, v]) (.obj [] [k', v']) = lt k k')
    (es : List PairEntry) (text : Bytes) (hd : JDoc codePair (.arr (es.map PairEntry.tree)) text)
    (he : ∀ e ∈ es, imp (jsem conv) env cfg e.keyTree kt k0 = .ok e.key ∧ imp (jsem conv) env cfg e.valTree vt v0 = .ok e.val) :
    ∃ r : List (Val × Val), jsonImport env cfg conv (.seq (.sorted c) (.named i)) (.list []) text = .ok (.list (r.map fun p => .obj [] [p.1, p.2])) ∧
      r.Pairwise (fun p q => lt p.1 q.1 = true) ∧
      ∀ k v, (k, v) ∈ r ↔ ∃ pre post, es.map (fun e => (e.key, e.val)) = pre ++ (k, v) :: post ∧ ∀ p ∈ pre, equivalent lt p.1 k = false := by
  have himp : ∀ e ∈ es, imp (jsem conv) env cfg e.tree (.named i) ((Ty.named i).default env) = .ok (.obj [] [e.key, e.val]) := by
    intro e hm
    obtain ⟨h1, h2⟩ := he e hm
    simp only [PairEntry.tree, imp, imp.members, impObj, hdef, Ty.default, hdf]
    rw [impMembers]
    have f1 : StructDef.find ((jsem conv).key (Samples.jstr b!"first")) (.mk [] [⟨b!"first", b!"first", kt⟩, ⟨b!"second", b!"second", vt⟩] none) = some ⟨[], 0, kt⟩ := by
      cases conv <;> rfl
    have f2 : StructDef.find ((jsem conv).key (Samples.jstr b!"second")) (.mk [] [⟨b!"first", b!"first", kt⟩, ⟨b!"second", b!"second", vt⟩] none) = some ⟨[], 1, vt⟩ := by
      cases conv <;> rfl
    simp only [f1, Val.field, List.getElem?_cons_zero, h1, Res.ok_bind]
    rw [impMembers]
    simp only [f2, Val.setField, Val.field, List.set_cons_zero, List.getElem?_cons_succ, List.getElem?_cons_zero, h2, Res.ok_bind]
    rw [impMembers, if_neg]
    · rfl
    · rw [not_and, Bool.not_eq_false]
      intro _
      cases conv <;> rfl
  obtain ⟨r, h1, h2, h3⟩ := C71_set_import env cfg conv c (.named i) [] (es.map fun e => (e.tree, .obj [] [e.key, e.val])) text hc .nil
    (by rw [List.map_map]; exact hd) (by
      intro x hx
      obtain ⟨e, hm, rfl⟩ := List.mem_map.1 hx
      exact himp e hm)
  rw [List.nil_append, List.map_map] at h3
  simp only [Function.comp_def] at h3
  have hl : es.map (fun e => Val.obj [] [e.key, e.val]) = (es.map fun e => (e.key, e.val)).map fun p => .obj [] [p.1, p.2] := by
    rw [List.map_map]; rfl
  rw [hl] at h3
  generalize es.map (fun e => (e.key, e.val)) = l at h3 ⊢
  obtain ⟨q, rfl⟩ : ∃ q : List (Val × Val), r = q.map fun p => .obj [] [p.1, p.2] := by
    refine unpack r fun x hx => ?_
    obtain ⟨p, -, rfl⟩ := List.mem_map.1 (firstOf_mem ((h3 x).1 hx))
    exact ⟨p, rfl⟩
  refine ⟨q, h1, ?_, fun k v => ?_⟩
  · rw [List.pairwise_map] at h2
    exact h2.imp fun {a b} h => by rw [hcmp] at h; exact h
  · have := h3 (.obj [] [k, v])
    have hmem : ∀ l : List (Val × Val), Val.obj [] [k, v] ∈ l.map (fun p => Val.obj [] [p.1, p.2]) ↔ (k, v) ∈ l := by
      intro l
      rw [List.mem_map]
      constructor
      · rintro ⟨⟨a, b⟩, h, e⟩; simp only [Val.obj.injEq, List.cons.injEq, true_and, and_true] at e; obtain ⟨rfl, rfl⟩ := e; exact h
      · exact fun h => ⟨_, h, rfl⟩
    rw [hmem] at this
    rw [this]
    constructor
    · rintro ⟨pre, post, e, h⟩
      obtain ⟨p1, p2, rfl, rfl, e2⟩ := List.map_eq_append_iff.1 e
      obtain ⟨⟨a, b⟩, p3, rfl, e3, rfl⟩ := List.map_eq_cons_iff.1 e2
      simp only [Val.obj.injEq, List.cons.injEq, true_and, and_true] at e3
      obtain ⟨rfl, rfl⟩ := e3
      refine ⟨p1, p3, rfl, fun p hp => ?_⟩
      have := h _ (List.mem_map_of_mem hp)
      simpa [equivalent, hcmp] using this
    · rintro ⟨pre, post, rfl, h⟩
      refine ⟨pre.map (fun p => .obj [] [p.1, p.2]), post.map (fun p => .obj [] [p.1, p.2]), by simp, fun y hy => ?_⟩
      obtain ⟨p, hp, rfl⟩ := List.mem_map.1 hy
      have := h p hp
      simpa [equivalent, hcmp] using this

/-! ### A program with sets -/

/-- `operator<` of `int`. -/
def intLess : Val → Val → Bool
  | .int a, .int b => decide (a < b)
  | _, _ => false
/-- The key of a `std::pair<int, std::string>`. -/
def pairKey : Val → Int
  | .obj _ (.int a :: _) => a
  | _ => 0

/-- Sample program:
 * comparison 0: `std::less<int>` (`keyOf`: values that are no `int` do not occur; they count as zero); 1: of the elements of
   `std::map<int, std::string>` by their keys; 2: equality of `int`
 * 0: `std::pair<int, std::string>`
 * 1: `struct Sets { std::set<int> s; std::multiset<int> m; std::unordered_set<int> u; std::map<int, std::string> names; }` -/
def setsEnv : Env where
  defs
    | 0 => .cls ⟨.mk [] [⟨b!"first", b!"first", Samples.int32⟩, ⟨b!"second", b!"second", .str⟩] none, b!"pair", none⟩
    | 1 => .cls ⟨.mk [] [⟨b!"s", b!"s", .seq (.sorted 0) Samples.int32⟩, ⟨b!"m", b!"m", .seq (.multi 0) Samples.int32⟩,
        ⟨b!"u", b!"u", .seq (.hashed 2) Samples.int32⟩, ⟨b!"names", b!"names", .seq (.sorted 1) (.named 0)⟩] none, b!"Sets", none⟩
    | _ => .enum []
  dflt
    | 0 => .obj [] [.int 0, .str []]
    | 1 => .obj [] [.list [], .list [], .list [], .list []]
    | _ => .enum 0
  registry := []
  derives _ _ := false
  less
    | 0 => fun a b => decide (keyOf a < keyOf b)
    | 1 => fun a b => decide (pairKey a < pairKey b)
    | 2 => fun a b => decide (keyOf a = keyOf b)
    | _ => fun _ _ => false
where keyOf : Val → Int
  | .int a => a
  | _ => 0

theorem setsEnv_less (c : Nat) (h : c < 2) : StrictWeak (setsEnv.less c) := by
  match c, h with
  | 0, _ | 1, _ => exact ⟨fun a => by simp [setsEnv], fun a b c => by simp only [setsEnv, decide_eq_true_eq]; omega,
      fun a b c => by simp only [setsEnv, decide_eq_false_iff_not]; omega⟩
theorem setsEnv_eq : Equality (setsEnv.less 2) :=
  ⟨fun a => by simp [setsEnv], fun a b => by simp only [setsEnv, decide_eq_true_eq]; omega, fun a b c => by simp only [setsEnv, decide_eq_true_eq]; omega⟩

/-- The numbers as elements of an array. -/
def someInts (l : List Nat) : List (JTree × Val) := l.map fun i => (Samples.num i, .int i)

theorem ints_are {l : List Nat} (h : ∀ n ∈ l, n = 1 ∨ n = 2 ∨ n = 3) : elemsAre setsEnv ⟨.Strict, []⟩ true Samples.int32 (someInts l) := by
  intro e he
  obtain ⟨n, hn, rfl⟩ := List.mem_map.1 he
  rcases h n hn with rfl | rfl | rfl <;> rfl

/-- non-vacuity of C71: `[3,1,3,2]` into a set with `2`. -/
example : ∃ r, jsonImport setsEnv ⟨.Strict, []⟩ true (.seq (.sorted 0) Samples.int32) (.list [.int 2]) b!"[3,1,3,2]" = .ok (.list r) ∧
      r.Pairwise (fun a b => setsEnv.less 0 a b = true) ∧ ∀ x, x ∈ r ↔ FirstOf (equivalent (setsEnv.less 0)) x ([.int 2] ++ [.int 3, .int 1, .int 3, .int 2]) :=
  C71_set_import setsEnv _ true 0 Samples.int32 [.int 2] (someInts [3, 1, 3, 2]) _ (setsEnv_less 0 (by decide)) (by simp)
    (Samples.plain_doc (.arr ((someInts [3, 1, 3, 2]).map Prod.fst)) (by decide)) (ints_are (by decide))
/-- It is `{1,2,3}`; the multiset keeps all four. -/
example : jsonImport setsEnv ⟨.Strict, []⟩ true (.seq (.sorted 0) Samples.int32) (.list [.int 2]) b!"[3,1,3,2]" = .ok (.list [.int 1, .int 2, .int 3]) ∧
    jsonImport setsEnv ⟨.Strict, []⟩ true (.seq (.multi 0) Samples.int32) (.list [.int 2]) b!"[3,1,3,2]" = .ok (.list [.int 1, .int 2, .int 2, .int 3, .int 3]) ∧
    jsonImport setsEnv ⟨.Strict, []⟩ true (.seq (.hashed 2) Samples.int32) (.list [.int 2]) b!"[3,1,3,2]" = .ok (.list [.int 2, .int 3, .int 1]) := by
  refine ⟨?_, ?_, ?_⟩ <;>
  rw [Samples.import_plain (.arr ((someInts [3, 1, 3, 2]).map Prod.fst)) (by decide) (t := b!"[3,1,3,2]") rfl _ _ _ _ _ (by decide)] <;> rfl

/-- non-vacuity of C72 and C73. -/
example : ∃ r, jsonImport setsEnv ⟨.Strict, []⟩ true (.seq (.multi 0) Samples.int32) (.list [.int 2]) b!"[3,1,3,2]" = .ok (.list r) ∧
      r.Pairwise (fun a b => setsEnv.less 0 b a = false) ∧ r.Perm [.int 2, .int 3, .int 1, .int 3, .int 2] ∧
      ∀ x, r.filter (equivalent (setsEnv.less 0) x) = [Val.int 2, .int 3, .int 1, .int 3, .int 2].filter (equivalent (setsEnv.less 0) x) :=
  C72_multiset_import setsEnv _ true 0 Samples.int32 [.int 2] (someInts [3, 1, 3, 2]) _ (setsEnv_less 0 (by decide)) (by simp)
    (Samples.plain_doc (.arr ((someInts [3, 1, 3, 2]).map Prod.fst)) (by decide)) (ints_are (by decide))
example : ∃ r, jsonImport setsEnv ⟨.Strict, []⟩ true (.seq (.hashed 2) Samples.int32) (.list [.int 2]) b!"[3,1,3,2]" = .ok (.list r) ∧
      r.Pairwise (fun a b => setsEnv.less 2 a b = false) ∧ ∀ x, x ∈ r ↔ FirstOf (setsEnv.less 2) x [.int 2, .int 3, .int 1, .int 3, .int 2] :=
  C73_unordered_set_import setsEnv _ true 2 Samples.int32 [.int 2] (someInts [3, 1, 3, 2]) _ setsEnv_eq (by simp)
    (Samples.plain_doc (.arr ((someInts [3, 1, 3, 2]).map Prod.fst)) (by decide)) (ints_are (by decide))

/-- non-vacuity of C74: `[3,1,3,2]` and `[1,2,3]` are the same set, `[3,1,3,2]` and `[3,3,2,1]` the same multiset. -/
example : jsonImport setsEnv ⟨.Strict, []⟩ true (.seq (.sorted 0) Samples.int32) (.list [.int 2]) b!"[3,1,3,2]" =
    jsonImport setsEnv ⟨.Strict, []⟩ true (.seq (.sorted 0) Samples.int32) (.list [.int 2]) b!"[1,2,3]" :=
  C74_set_order_irrelevant setsEnv _ true 0 Samples.int32 [.int 2] (someInts [3, 1, 3, 2]) (someInts [1, 2, 3]) _ _ (setsEnv_less 0 (by decide))
    (by intro a ha b hb
        simp only [someInts, List.map_cons, List.map_nil, List.mem_append, List.mem_cons, List.not_mem_nil, or_false] at ha hb
        rcases ha with rfl | rfl | rfl | rfl | rfl <;> rcases hb with rfl | rfl | rfl | rfl | rfl <;> simp [equivalent, setsEnv, setsEnv.keyOf])
    (by simp) (Samples.plain_doc (.arr ((someInts [3, 1, 3, 2]).map Prod.fst)) (by decide)) (ints_are (by decide))
    (Samples.plain_doc (.arr ((someInts [1, 2, 3]).map Prod.fst)) (by decide)) (ints_are (by decide))
    (by intro v; simp only [someInts, List.map_cons, List.map_nil, List.mem_cons, List.not_mem_nil, or_false]
        constructor
        · rintro (h | h | h | h) <;> simp [h]
        · rintro (h | h | h) <;> simp [h])
example : jsonImport setsEnv ⟨.Strict, []⟩ true (.seq (.multi 0) Samples.int32) (.list [.int 2]) b!"[3,1,3,2]" =
    jsonImport setsEnv ⟨.Strict, []⟩ true (.seq (.multi 0) Samples.int32) (.list [.int 2]) b!"[3,3,1,2]" :=
  C74_multiset_order_irrelevant setsEnv _ true 0 Samples.int32 [.int 2] (someInts [3, 1, 3, 2]) (someInts [3, 3, 1, 2]) _ _ (setsEnv_less 0 (by decide))
    (by intro a ha b hb
        simp only [someInts, List.map_cons, List.map_nil, List.mem_append, List.mem_cons, List.not_mem_nil, or_false] at ha hb
        rcases ha with rfl | rfl | rfl | rfl | rfl <;> rcases hb with rfl | rfl | rfl | rfl | rfl <;> simp [equivalent, setsEnv, setsEnv.keyOf])
    (by simp) (Samples.plain_doc (.arr ((someInts [3, 1, 3, 2]).map Prod.fst)) (by decide)) (ints_are (by decide))
    (Samples.plain_doc (.arr ((someInts [3, 3, 1, 2]).map Prod.fst)) (by decide)) (ints_are (by decide))
    (.cons _ (.swap _ _ _))

/-- non-vacuity of C75: the key `2` is repeated; the first value is kept. -/
def repeated : List PairEntry :=
  [⟨Samples.num 2, .scalar (.str (Samples.jstr b!"b")), .int 2, .str b!"b"⟩, ⟨Samples.num 1, .scalar (.str (Samples.jstr b!"a")), .int 1, .str b!"a"⟩,
   ⟨Samples.num 2, .scalar (.str (Samples.jstr b!"c")), .int 2, .str b!"c"⟩]
example : ∃ r : List (Val × Val), jsonImport setsEnv ⟨.Exact, []⟩ true (.seq (.sorted 1) (.named 0)) (.list [])
      b!"[{\"first\":2,\"second\":\"b\"},{\"first\":1,\"second\":\"a\"},{\"first\":2,\"second\":\"c\"}]" = .ok (.list (r.map fun p => .obj [] [p.1, p.2])) ∧
    (.int 2, .str b!"b") ∈ r ∧ (.int 2, .str b!"c") ∉ r := by
  obtain ⟨r, h1, -, h3⟩ := C75_map_first_wins setsEnv ⟨.Exact, []⟩ true 1 0 Samples.int32 .str (fun a b => decide (setsEnv.keyOf a < setsEnv.keyOf b)) (.int 0) (.str []) _ rfl rfl
    (setsEnv_less 1 (by decide)) (by intro k v k' v'; simp only [setsEnv]; cases k <;> cases k' <;> rfl) repeated _
    (Samples.plain_doc (.arr (repeated.map PairEntry.tree)) (by decide))
    (by intro e he
        simp only [repeated, List.mem_cons, List.not_mem_nil, or_false] at he
        rcases he with rfl | rfl | rfl <;> exact ⟨rfl, rfl⟩)
  refine ⟨r, h1, (h3 _ _).2 ⟨[], _, rfl, by simp⟩, fun hm => ?_⟩
  obtain ⟨pre, post, e, h⟩ := (h3 _ _).1 hm
  simp only [repeated, List.map_cons, List.map_nil] at e
  match pre, e, h with
  | [], e, _ => simp at e
  | p :: pre, e, h =>
    simp only [List.cons_append, List.cons.injEq] at e
    have := h p (by simp)
    rw [← e.1] at this
    simp [equivalent, setsEnv.keyOf] at this

/-! ### C23 for sets -/

theorem setsEnv_good : GoodTypes setsEnv where
  names i c h := by
    match i with
    | 0 | 1 => simp only [setsEnv, TypeDef.cls.injEq] at h; subst h; decide
    | n + 2 => simp [setsEnv] at h
  enums i t h := by
    match i with
    | 0 | 1 => simp [setsEnv] at h
    | n + 2 => simp only [setsEnv, TypeDef.enum.injEq] at h; subst h; decide
  fresh i := by
    match i with
    | 0 | 1 => simp [setsEnv, Fresh, FreshOwn, FreshParents, Samples.int32]
    | n + 2 => simp [setsEnv, Fresh]

theorem setsEnv_noFilter : ∀ i c, setsEnv.defs i = .cls c → NoFilter c.traits := by
  intro i c h
  match i with
  | 0 | 1 => simp only [setsEnv, TypeDef.cls.injEq] at h; subst h; simp [NoFilter, NoFilter.all]
  | n + 2 => simp [setsEnv] at h

def someSets : Val := .obj [] [.list [.int (-1), .int 4], .list [.int 4, .int 4, .int 5], .list [.int 7, .int 3],
  .list [.obj [] [.int 1, .str b!"one"], .obj [] [.int 2, .str b!"two"]]]
def someSetsDoc : Doc := .obj
  [(b!"s", .arr [.scalar (.int ⟨32, true⟩ (-1)), .scalar (.int ⟨32, true⟩ 4)]),
   (b!"m", .arr [.scalar (.int ⟨32, true⟩ 4), .scalar (.int ⟨32, true⟩ 4), .scalar (.int ⟨32, true⟩ 5)]),
   (b!"u", .arr [.scalar (.int ⟨32, true⟩ 7), .scalar (.int ⟨32, true⟩ 3)]),
   (b!"names", .arr [.obj [(b!"first", .scalar (.int ⟨32, true⟩ 1)), (b!"second", .scalar (.str b!"one"))],
     .obj [(b!"first", .scalar (.int ⟨32, true⟩ 2)), (b!"second", .scalar (.str b!"two"))]])]

theorem someSets_doc : Spec.docOf setsEnv [] (.named 1) someSets = .ok someSetsDoc := by
  simp [Spec.docOf, docOwn, docParents, docList, someSets, setsEnv, Samples.int32, shown, someSetsDoc]

theorem someSets_storable : Storable setsEnv [] (.named 1) someSets := by
  simp [Storable, StorableOwn, StorableParents, StorableList, someSets, setsEnv, Samples.int32, elemsOrdered, restoredList, restored, restoredOwn,
    restoredParents, setsEnv.keyOf, pairKey, shown, Ty.default]
  decide

/-- non-vacuity of C23 with sets and maps whose keys are not strings. -/
example : ∃ text p, jsonExport setsEnv {} (.named 1) someSets = .ok text ∧
      importValue JsonP.ops setsEnv ⟨.Exact, []⟩ (.named 1) (setsEnv.dflt 1) (PI.init (JsonP.ofBytes (text ++ b!"tail") true)) = .ok (someSets, p) ∧
      p.inner.lex.inp.rest = b!"tail" :=
  C23_round_trip_partial setsEnv {} ⟨.Exact, []⟩ (.named 1) someSets (setsEnv.dflt 1) someSetsDoc _ setsEnv_good setsEnv_noFilter rfl
    (fun _ i c h => by
      refine ⟨setsEnv_noFilter i c h, ?_⟩
      match i with
      | 0 | 1 => simp only [setsEnv, TypeDef.cls.injEq] at h; subst h; simp [allMembers, allMembers.inherited, Samples.int32]
      | n + 2 => simp [setsEnv] at h) someSets_doc
    someSets_storable (setsEnv_good.fresh 1) (by simp [someSetsDoc, AllKeys, AllKeys.members, AllKeys.elems]; decide)
    (by simp [someSetsDoc, AllScalars, AllScalars.members, AllScalars.elems, sixAtom])
    (.inr (by intro k hk; simp only [indentation]; simp; simp [someSetsDoc, nesting, nesting.members, nesting.elems] at hk; omega))
    ⟨by intro k i h; simp [someSetsDoc] at h, by intro k i h; simp [someSetsDoc] at h⟩

end Thors.Props
