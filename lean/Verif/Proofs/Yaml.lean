import Verif.Proofs.YamlPresents
import Verif.Proofs.JsonRoundTrip
import Verif.Proofs.BsonNum
import Verif.Proofs.SerDoc
import Verif.Proofs.Watch
import Verif.Proofs.YamlFloat
/-
YAML: token sequences, numbers, what the printer sends, the round trip, what is never accepted, chunks.
-/
namespace Thors
open Spec StrIn

/-! ### Tokens -/

/-- The text of the current event. -/
def YamlP.text (s : YamlP) : Option Bytes :=
  match s.cur with
  | .scalar t => some t
  | _ => none

/-- A client who calls `getNextToken` again and again sees these tokens and texts. -/
inductive YSees : YamlP → List (Tok × Option Bytes) → YamlP → Prop
  | nil {s} : YSees s [] s
  | cons {s s1 s' t x es} (hn : s.getNextToken = .ok (t, s1)) (hx : s1.text = x) (h : YSees s1 es s') : YSees s ((t, x) :: es) s'

theorem ysees_append {s1 s2 s3 : YamlP} {a b : List (Tok × Option Bytes)} (h1 : YSees s1 a s2) (h2 : YSees s2 b s3) : YSees s1 (a ++ b) s3 := by
  induction h1 with
  | nil => exact h2
  | cons hn hx _ ih => exact .cons hn hx (ih h2)

/-- Tokens with texts. -/
def ytoks : YTree → List (Tok × Option Bytes)
  | .scalar x => [(.Value, some x)]
  | .arr vs => (.ArrayStart, none) :: elems vs ++ [(.ArrayEnd, none)]
  | .obj ms => (.MapStart, none) :: members ms ++ [(.MapEnd, none)]
where
  elems : List YTree → List (Tok × Option Bytes)
  | [] => []
  | v :: vs => ytoks v ++ elems vs
  members : List (Bytes × YTree) → List (Tok × Option Bytes)
  | [] => []
  | (k, v) :: ms => (.Key, some k) :: ytoks v ++ members ms

mutual
theorem ytoks_zip : ∀ v : YTree, ytoks v = (treeToks v).zip (texts v) ∧ (treeToks v).length = (texts v).length
  | .scalar x => ⟨rfl, rfl⟩
  | .arr vs => by
    obtain ⟨h1, h2⟩ := yelems_zip vs
    simp [ytoks, treeToks, texts, h1, h2, List.zip_append h2]
  | .obj ms => by
    obtain ⟨h1, h2⟩ := ymems_zip ms
    simp [ytoks, treeToks, texts, h1, h2, List.zip_append h2]
theorem yelems_zip : ∀ vs : List YTree, ytoks.elems vs = (treeToks.elems vs).zip (texts.elems vs) ∧ (treeToks.elems vs).length = (texts.elems vs).length
  | [] => ⟨rfl, rfl⟩
  | v :: vs => by
    obtain ⟨h1, h2⟩ := yelems_zip vs
    obtain ⟨h3, h4⟩ := ytoks_zip v
    simp [ytoks.elems, treeToks.elems, texts.elems, h1, h2, h3, h4, List.zip_append h4]
theorem ymems_zip : ∀ ms : List (Bytes × YTree), ytoks.members ms = (treeToks.members ms).zip (texts.members ms) ∧ (treeToks.members ms).length = (texts.members ms).length
  | [] => ⟨rfl, rfl⟩
  | (k, v) :: ms => by
    obtain ⟨h1, h2⟩ := ymems_zip ms
    obtain ⟨h3, h4⟩ := ytoks_zip v
    simp [ytoks.members, treeToks.members, texts.members, h1, h2, h3, h4, List.zip_append h4]
end

theorem yaml_sees (v : YTree) : ∀ (k : YState) (n : Nat) (st : List (YState × Nat)) (es : List YEv) (s : YamlP), yVal k n →
    yAt (yevents v ++ es) k n st s → ∃ s', YSees s (ytoks v) s' ∧ yAt es k (n + 1) st s' := by
  induction v using Spec.Tr.induct with
  | hs x =>
    intro k n st es s hv hs
    refine ⟨⟨es, (k, n + 1) :: st, false, false, .scalar x⟩, .cons (s1 := ⟨es, (k, n + 1) :: st, false, false, .scalar x⟩) ?_ ?_ .nil, rfl, rfl, rfl, rfl⟩
    · rw [show YamlP.getNextToken = YamlP.ops.next from rfl, y_next hs]
      simp only [YamlP.parseEvent]
      rw [if_neg hv]
      rfl
    · rfl
  | ha vs ih =>
    intro k n st es s hv hs
    have key : ∀ (vs : List YTree), (∀ v ∈ vs, ∀ (k : YState) (n : Nat) (st : List (YState × Nat)) (es : List YEv) (s : YamlP), yVal k n →
          yAt (yevents v ++ es) k n st s → ∃ s', YSees s (ytoks v) s' ∧ yAt es k (n + 1) st s') →
          ∀ (m : Nat) (s : YamlP), yAt (yevents.elems vs ++ .seqEnd :: es) .Array m ((k, n + 1) :: st) s →
            ∃ s', YSees s (ytoks.elems vs ++ [(.ArrayEnd, none)]) s' ∧ yAt es k (n + 1) st s' := by
      intro vs
      induction vs with
      | nil =>
        intro _ m s hs
        exact ⟨⟨es, (k, n + 1) :: st, false, false, .seqEnd⟩, .cons (s1 := ⟨es, (k, n + 1) :: st, false, false, .seqEnd⟩) ((y_next hs).trans rfl) rfl .nil, rfl, rfl, rfl, rfl⟩
      | cons v vs ih2 =>
        intro ih m s hs
        simp only [yevents.elems, List.append_assoc] at hs
        obtain ⟨s1, e1, h1⟩ := ih v (by simp) .Array m _ _ s (by simp [yVal]) hs
        obtain ⟨s2, e2, h2⟩ := ih2 (fun v hv => ih v (by simp [hv])) (m + 1) s1 h1
        exact ⟨s2, by simp only [ytoks.elems, List.append_assoc]; exact ysees_append e1 e2, h2⟩
    rw [show yevents (.arr vs) ++ es = .seqStart :: (yevents.elems vs ++ .seqEnd :: es) by simp [yevents]] at hs
    obtain ⟨s', e, h⟩ := key vs ih 0 ⟨yevents.elems vs ++ .seqEnd :: es, (.Array, 0) :: (k, n + 1) :: st, false, false, .seqStart⟩ ⟨rfl, rfl, rfl, rfl⟩
    refine ⟨s', .cons ?_ ?_ e, h⟩
    · rw [show YamlP.getNextToken = YamlP.ops.next from rfl, y_next hs]
      simp only [YamlP.parseEvent]
      rw [if_neg hv]
    · rfl
  | ho ms ih =>
    intro k n st es s hv hs
    have key : ∀ (ms : List (Bytes × YTree)), (∀ m ∈ ms, ∀ (k : YState) (n : Nat) (st : List (YState × Nat)) (es : List YEv) (s : YamlP), yVal k n →
          yAt (yevents m.2 ++ es) k n st s → ∃ s', YSees s (ytoks m.2) s' ∧ yAt es k (n + 1) st s') →
          ∀ (m : Nat) (s : YamlP), m % 2 = 0 → yAt (yevents.members ms ++ .mapEnd :: es) .Map m ((k, n + 1) :: st) s →
            ∃ s', YSees s (ytoks.members ms ++ [(.MapEnd, none)]) s' ∧ yAt es k (n + 1) st s' := by
      intro ms
      induction ms with
      | nil =>
        intro _ m s hm hs
        refine ⟨⟨es, (k, n + 1) :: st, false, false, .mapEnd⟩, .cons (s1 := ⟨es, (k, n + 1) :: st, false, false, .mapEnd⟩) ((y_next hs).trans ?_) rfl .nil, rfl, rfl, rfl, rfl⟩
        simp [YamlP.parseEvent, hm]
      | cons m ms ih2 =>
        obtain ⟨kk, v⟩ := m
        intro ih m s hm hs
        simp only [yevents.members, List.cons_append, List.append_assoc] at hs
        obtain ⟨s1, e1, h1⟩ := ih (kk, v) (by simp) .Map (m + 1) ((k, n + 1) :: st) (yevents.members ms ++ .mapEnd :: es)
          ⟨yevents v ++ (yevents.members ms ++ .mapEnd :: es), (.Map, m + 1) :: (k, n + 1) :: st, false, false, .scalar kk⟩
          (by simp only [yVal]; omega) ⟨rfl, rfl, rfl, rfl⟩
        obtain ⟨s2, e2, h2⟩ := ih2 (fun v hv => ih v (by simp [hv])) (m + 2) s1 (by omega) h1
        refine ⟨s2, ?_, h2⟩
        simp only [ytoks.members, List.cons_append, List.append_assoc]
        refine .cons ?_ rfl (ysees_append e1 e2)
        rw [show YamlP.getNextToken = YamlP.ops.next from rfl, y_next hs]
        simp only [YamlP.parseEvent]
        rw [if_pos ⟨trivial, by omega⟩]
    rw [show yevents (.obj ms) ++ es = .mapStart :: (yevents.members ms ++ .mapEnd :: es) by simp [yevents]] at hs
    obtain ⟨s', e, h⟩ := key ms ih 0 ⟨yevents.members ms ++ .mapEnd :: es, (.Map, 0) :: (k, n + 1) :: st, false, false, .mapStart⟩ rfl ⟨rfl, rfl, rfl, rfl⟩
    refine ⟨s', .cons ?_ ?_ e, h⟩
    · rw [show YamlP.getNextToken = YamlP.ops.next from rfl, y_next hs]
      simp only [YamlP.parseEvent]
      rw [if_neg hv]
    · rfl

mutual
theorem jevents_toks (conv : Bool) : ∀ v : JTree, (jevents conv v).map JEv.tok = treeToks v
  | .scalar x => by cases x <;> rfl
  | .arr vs => by simp [jevents, treeToks, JEv.tok, jevents_elems conv vs]
  | .obj ms => by simp [jevents, treeToks, JEv.tok, jevents_members conv ms]
theorem jevents_elems (conv : Bool) : ∀ vs : List JTree, (jevents.elems conv vs).map JEv.tok = treeToks.elems vs
  | [] => rfl
  | v :: vs => by simp [jevents.elems, treeToks.elems, jevents_toks conv v, jevents_elems conv vs]
theorem jevents_members (conv : Bool) : ∀ ms : List (JStr × JTree), (jevents.members conv ms).map JEv.tok = treeToks.members ms
  | [] => rfl
  | (k, v) :: ms => by simp [jevents.members, treeToks.members, JEv.tok, jevents_toks conv v, jevents_members conv ms]
end

/-! ### Numbers -/

theorem digit_not_space {c : Byte} (h : isDigit c = true) : YamlP.isSpaceC c = false :=
  forall_byte (P := fun c => isDigit c = true → YamlP.isSpaceC c = false) (by decide +kernel) c h

theorem digit_not_sign {c : Byte} (h : isDigit c = true) : c ≠ 0x2D ∧ c ≠ 0x2B := by
  constructor <;> (rintro rfl; exact absurd h (by decide))

theorem strto_lit {t : Bytes} {i : Int} (h : IntLit t i) : ∃ neg m, YamlP.strto t = some (neg, m, []) ∧ i = if neg then -(m : Int) else m := by
  cases h with
  | pos h =>
    rename_i n
    obtain ⟨h1, h2, h3⟩ := dec_iff.1 h
    cases t with
    | nil => exact absurd rfl h1
    | cons c cs =>
      have hc := h2 c (by simp)
      have hd := digitPrefix_append (post := []) h2 (by simp)
      simp only [List.append_nil] at hd
      refine ⟨false, n, ?_, by simp⟩
      unfold YamlP.strto
      rw [List.dropWhile_cons, digit_not_space hc]
      obtain ⟨n1, n2⟩ := digit_not_sign hc
      simp only [Bool.false_eq_true, if_false, if_neg n1, if_neg n2]
      rw [hd, if_neg (by simp), h3]
      simp
  | neg h =>
    rename_i t n
    obtain ⟨h1, h2, h3⟩ := dec_iff.1 h
    have hd := digitPrefix_append (post := []) h2 (by simp)
    simp only [List.append_nil] at hd
    refine ⟨true, n, ?_, by simp⟩
    unfold YamlP.strto
    rw [List.dropWhile_cons, show YamlP.isSpaceC 0x2D = false by decide]
    simp only [Bool.false_eq_true, if_false, if_true]
    rw [hd, if_neg h1, h3]
    simp

theorem scanText_lit {k : IntKind} {t : Bytes} {i : Int} (hb : 0 < k.bits) (hb2 : k.bits ≤ 64) (h : IntLit t i) (hf : k.fits i) :
    YamlP.scanText k t = .ok i := by
  obtain ⟨neg, m, e, hi⟩ := strto_lit h
  unfold YamlP.scanText
  rw [e]
  simp only [ne_eq, not_true_eq_false, if_false]
  have hp : (2 : Int) ^ k.bits ≤ 2 ^ 64 := by
    have := Nat.pow_le_pow_right (n := 2) (by decide) hb2
    exact_mod_cast this
  have hp1 : (2 : Int) ^ (k.bits - 1) ≤ 2 ^ 63 := by
    have := Nat.pow_le_pow_right (n := 2) (i := k.bits - 1) (j := 63) (by decide) (by omega)
    exact_mod_cast this
  have hf' := hf
  simp only [IntKind.fits, IntKind.lo, IntKind.hi] at hf'
  congr 1
  cases hs : k.signed with
  | true =>
    simp only [hs, if_true] at hf' ⊢
    have : YamlP.strtolVal neg m = i := by
      unfold YamlP.strtolVal
      simp only [← hi]
      rw [if_neg (by omega), if_neg (by omega)]
    rw [this, castTo_fits hb hf]
  | false =>
    simp only [hs, Bool.false_eq_true, if_false] at hf' ⊢
    have : YamlP.strtoulVal neg m = i := by
      unfold YamlP.strtoulVal
      cases neg with
      | true =>
        simp only [if_true] at hi ⊢
        have : m = 0 := by omega
        subst this
        subst hi
        rfl
      | false =>
        simp only [Bool.false_eq_true, if_false] at hi ⊢
        have hm : m < 2 ^ 64 := by
          have : (m : Int) < 2 ^ 64 := by omega
          exact_mod_cast this
        rw [if_neg (by omega), hi]
    rw [this, castTo_fits hb hf]

theorem digitPrefix_split : ∀ t : Bytes, t = digitPrefix t ++ t.drop (digitPrefix t).length ∧ ∀ c ∈ digitPrefix t, isDigit c = true
  | [] => ⟨rfl, by simp [digitPrefix]⟩
  | c :: cs => by
    obtain ⟨h1, h2⟩ := digitPrefix_split cs
    unfold digitPrefix at h1 h2 ⊢
    cases hc : isDigit c with
    | true =>
      simp only [List.takeWhile_cons, hc, if_true, List.cons_append, List.length_cons, List.drop_succ_cons, ← h1, true_and]
      intro d hd
      rcases List.mem_cons.1 hd with rfl | hd
      · exact hc
      · exact h2 d hd
    | false => simp [hc]

theorem scanText_ok {k : IntKind} {t : Bytes} {i : Int} (h : YamlP.scanText k t = .ok i) :
    t = [] ∨ ∃ sp sg ds n, t = sp ++ (sg ++ ds) ∧ (∀ c ∈ sp, c = 0x20 ∨ (0x09 ≤ c ∧ c ≤ 0x0D)) ∧ (sg = [] ∨ sg = [0x2D] ∨ sg = [0x2B]) ∧ Dec ds n := by
  unfold YamlP.scanText at h
  split at h
  · split at h
    · left; assumption
    · cases h
  · rename_i neg m rest e
    split at h
    · cases h
    · rename_i hr
      right
      have hsp : ∀ c ∈ t.takeWhile YamlP.isSpaceC, c = 0x20 ∨ (0x09 ≤ c ∧ c ≤ 0x0D) := by
        intro c hc
        have := List.all_takeWhile (l := t) (p := YamlP.isSpaceC)
        have := List.all_eq_true.1 this c hc
        simpa [YamlP.isSpaceC] using this
      unfold YamlP.strto at e
      have key : ∀ u : Bytes, digitPrefix u ≠ [] → u.drop (digitPrefix u).length = [] → Dec u (digitsVal u) := by
        intro u h1 h2
        obtain ⟨h3, h4⟩ := digitPrefix_split u
        rw [h2, List.append_nil] at h3
        rw [← h3] at h1 h4
        exact dec_iff.2 ⟨h1, h4, rfl⟩
      have ht := (List.takeWhile_append_dropWhile (p := YamlP.isSpaceC) (l := t)).symm
      have hr' : rest = [] := by simpa using hr
      cases hd : t.dropWhile YamlP.isSpaceC with
      | nil => rw [hd] at e; simp [digitPrefix] at e
      | cons c cs =>
        rw [hd] at e ht
        simp only at e
        by_cases h1 : c = 0x2D
        · simp only [h1, if_true] at e
          split at e
          · cases e
          · rename_i hp
            simp only [Option.some.injEq, Prod.mk.injEq] at e
            exact ⟨_, [0x2D], cs, _, by rw [h1] at ht; exact ht, hsp, by simp, key cs hp (by rw [e.2.2, hr'])⟩
        · by_cases h2 : c = 0x2B
          · simp only [h2, if_neg (show ¬ ((0x2B : Byte) = 0x2D) by decide), if_true] at e
            split at e
            · cases e
            · rename_i hp
              simp only [Option.some.injEq, Prod.mk.injEq] at e
              exact ⟨_, [0x2B], cs, _, by rw [h2] at ht; exact ht, hsp, by simp, key cs hp (by rw [e.2.2, hr'])⟩
          · simp only [if_neg h1, if_neg h2] at e
            split at e
            · cases e
            · rename_i hp
              simp only [Option.some.injEq, Prod.mk.injEq] at e
              exact ⟨_, [], c :: cs, _, ht, hsp, by simp, key (c :: cs) hp (by rw [e.2.2, hr'])⟩

/-! ### More -/

mutual
theorem ytree_enc : ∀ d : Doc, ytree d = enc (fun k => k) yatom d
  | .scalar a => rfl
  | .arr ts => by rw [ytree, enc, ytree_enc_elems ts]
  | .obj ms => by rw [ytree, enc, ytree_enc_members ms]
theorem ytree_enc_elems : ∀ ts : List Doc, ytree.elems ts = enc.elems (fun k => k) yatom ts
  | [] => rfl
  | t :: ts => by rw [ytree.elems, enc.elems, ytree_enc t, ytree_enc_elems ts]
theorem ytree_enc_members : ∀ ms : List (Bytes × Doc), ytree.members ms = enc.members (fun k => k) yatom ms
  | [] => rfl
  | (k, t) :: ms => by rw [ytree.members, enc.members, ytree_enc t, ytree_enc_members ms]
end

/-! ### The printer -/

theorem yrun_append (acc : Bytes → Bool) : ∀ (a b : List Cmd) (ss : YPrint.State),
    YPrint.run acc (a ++ b) ss = (do
      let (w, ss) ← YPrint.run acc a ss
      let (ws, ss) ← YPrint.run acc b ss
      return (w ++ ws, ss))
  | [], b, ss => by
    simp only [List.nil_append, YPrint.run, Res.ok_bind]
    cases YPrint.run acc b ss <;> rfl
  | c :: a, b, ss => by
    simp only [List.cons_append, YPrint.run]
    cases YPrint.step acc c ss with
    | ok x =>
      obtain ⟨w, ss⟩ := x
      simp only [Res.ok_bind, yrun_append acc a b ss]
      cases YPrint.run acc a ss with
      | ok x =>
        obtain ⟨w2, ss⟩ := x
        simp only [Res.ok_bind, Res.pure_eq]
        cases YPrint.run acc b ss with
        | ok x => simp [Res.ok_bind, Res.pure_eq]
        | throw => rfl
        | ub => rfl
      | throw => rfl
      | ub => rfl
    | throw => rfl
    | ub => rfl

theorem yemit_ok {acc : Bytes → Bool} {t : Bytes} (h : acc t = true) (n : Nat) (k : JPrint.Kind) (ss : YPrint.State) :
    YPrint.emit acc t ((n, k) :: ss) = .ok ([.scalar t], (n + 1, k) :: ss) := by
  rw [YPrint.emit, if_pos h]

theorem ystep_atom {acc : Bytes → Bool} (a : Atom) (h : acc (yatom a) = true) (n : Nat) (k : JPrint.Kind) (ss : YPrint.State) :
    YPrint.step acc (atomCmd a) ((n, k) :: ss) = .ok ([.scalar (yatom a)], (n + 1, k) :: ss) := by
  cases a <;> exact yemit_ok h n k ss

mutual
/-- What the calls for a document do. (A collection is not counted in the state of the collection around it,
which is why the number afterwards is not given here.) -/
theorem yrun_doc {acc : Bytes → Bool} : ∀ (d : Doc) (n : Nat) (k : JPrint.Kind) (ss : YPrint.State), AllKeys (fun k => acc k = true) d →
    AllScalars (fun a => acc (yatom a) = true) d → ∃ n', YPrint.run acc (cmdsOf d) ((n, k) :: ss) = .ok (yevents (ytree d), (n', k) :: ss)
  | .scalar a, n, k, ss, _, ha => by
    refine ⟨n + 1, ?_⟩
    simp only [cmdsOf, YPrint.run]
    rw [ystep_atom a ha]
    rfl
  | .arr ts, n, k, ss, hk, ha => by
    obtain ⟨n', e⟩ := yrun_elems ts 0 .Array ((n, k) :: ss) hk ha
    refine ⟨n, ?_⟩
    simp only [cmdsOf, List.cons_append, YPrint.run, YPrint.step, Res.ok_bind]
    rw [yrun_append, e]
    simp [YPrint.run, YPrint.step, yevents, ytree]
  | .obj ms, n, k, ss, hk, ha => by
    obtain ⟨n', e⟩ := yrun_members ms 0 ((n, k) :: ss) hk ha
    refine ⟨n, ?_⟩
    simp only [cmdsOf, List.cons_append, YPrint.run, YPrint.step, Res.ok_bind]
    rw [yrun_append, e]
    simp [YPrint.run, YPrint.step, yevents, ytree]
theorem yrun_elems {acc : Bytes → Bool} : ∀ (ts : List Doc) (n : Nat) (k : JPrint.Kind) (ss : YPrint.State), AllKeys.elems (fun k => acc k = true) ts →
    AllScalars.elems (fun a => acc (yatom a) = true) ts → ∃ n', YPrint.run acc (cmdsOf.elems ts) ((n, k) :: ss) = .ok (yevents.elems (ytree.elems ts), (n', k) :: ss)
  | [], n, k, ss, _, _ => ⟨n, rfl⟩
  | t :: ts, n, k, ss, hk, ha => by
    obtain ⟨n1, e1⟩ := yrun_doc t n k ss hk.1 ha.1
    obtain ⟨n2, e2⟩ := yrun_elems ts n1 k ss hk.2 ha.2
    refine ⟨n2, ?_⟩
    rw [cmdsOf.elems, yrun_append, e1]
    simp [e2, yevents.elems, ytree.elems]
theorem yrun_members {acc : Bytes → Bool} : ∀ (ms : List (Bytes × Doc)) (n : Nat) (ss : YPrint.State), AllKeys.members (fun k => acc k = true) ms →
    AllScalars.members (fun a => acc (yatom a) = true) ms → ∃ n', YPrint.run acc (cmdsOf.members ms) ((n, .Map) :: ss) = .ok (yevents.members (ytree.members ms), (n', .Map) :: ss)
  | [], n, ss, _, _ => ⟨n, rfl⟩
  | (k, t) :: ms, n, ss, hk, ha => by
    obtain ⟨n1, e1⟩ := yrun_doc t (n + 1) .Map ss hk.2.1 ha.1
    obtain ⟨n2, e2⟩ := yrun_members ms n1 ss hk.2.2 ha.2
    refine ⟨n2, ?_⟩
    simp only [cmdsOf.members, List.cons_append, YPrint.run, YPrint.step]
    rw [if_neg (by simp), yemit_ok hk.1, Res.ok_bind]
    simp only
    rw [yrun_append, e1]
    simp [e2, yevents.members, ytree.members]
end

theorem yaml_export_doc (acc : Bytes → Bool) (env : Env) (mk : Bytes) (ty : Ty) (v : Val) (d : Doc) (hd : docOf env mk ty v = .ok d)
    (hk : AllKeys (fun k => acc k = true) d) (ha : AllScalars (fun a => acc (yatom a) = true) d) :
    yamlExport acc env mk ty v = .ok (ydoc (ytree d)) := by
  obtain ⟨n', e⟩ := yrun_doc d 0 .Value [] hk ha
  unfold yamlExport
  rw [ser_doc, hd]
  simp [e, ydoc]

/-! ### Round trip -/

/-- Scalars that survive: integers of at most 64 bits, floating point values that six digits describe, infinity and NaN,
strings that YAML does not take for null. -/
def yOk : Atom → Prop
  | .int k _ => 0 < k.bits ∧ k.bits ≤ 64
  | .flt f x => Six f x ∨ ¬ finite x
  | .str s => s ≠ b!"null" ∧ s ≠ b!"~"
  | _ => True

theorem intLit_head {t : Bytes} {i : Int} (h : IntLit t i) : ∃ c cs, t = c :: cs ∧ (isDigit c = true ∨ c = 0x2D) := by
  cases h with
  | pos h =>
    obtain ⟨h1, h2, -⟩ := dec_iff.1 h
    cases t with
    | nil => exact absurd rfl h1
    | cons c cs => exact ⟨c, cs, rfl, .inl (h2 c (by simp))⟩
  | neg h => exact ⟨0x2D, _, rfl, .inr rfl⟩

theorem head_not_null {c : Byte} {cs : Bytes} (h : isDigit c = true ∨ c = 0x2D) : ¬ (c :: cs = b!"null" ∨ c :: cs = b!"~") := by
  rintro (e | e) <;> injection e with e _ <;> subst e <;> revert h <;> decide

theorem intText_not_null (i : Int) : ¬ (intText i = b!"null" ∨ intText i = b!"~") := by
  obtain ⟨c, cs, e, h⟩ := intLit_head (intText_lit i)
  rw [e]
  exact head_not_null h

theorem yamlFaithful : Faithful (fun k : Bytes => k) yatom ysem (fun _ => True) yOk where
  key k _ := rfl
  null a h := by
    cases a with
    | null => simp [ysem, yatom]
    | bool b => cases b <;> simp [ysem, yatom] <;> decide
    | int k i => simp only [ysem, yatom, intText_not_null]; simp
    | flt f x => simp only [ysem, yatom, general_not_null]; simp
    | str s => simp only [yOk] at h; simp [ysem, yatom, h.1, h.2]
  int k i h hf := scanText_lit h.1 h.2 (intText_lit i) (fits_iff.2 hf)
  flt f x h _ := scan_general h
  bool b _ := by cases b <;> simp [ysem, yatom]
  str s _ := rfl

theorem yaml_round_trip (acc : Bytes → Bool) (env : Env) (mk : Bytes) (cfg : Cfg) (ty : Ty) (v old : Val) (d : Doc)
    (hg : GoodTypes env) (hm : cfg.marker = mk) (hx : cfg.strict = .Exact → ExactTypes env)
    (hd : docOf env mk ty v = .ok d) (hs : Storable env mk ty v) (ho : Fresh env ty old)
    (hk : AllKeys (fun k => acc k = true) d) (ha : AllScalars (fun a => acc (yatom a) = true) d) (hy : AllScalars yOk d) :
    yamlExport acc env mk ty v = .ok (ydoc (ytree d)) ∧ yamlImport env cfg ty old (ydoc (ytree d)) = .ok (restored env ty old v) := by
  refine ⟨yaml_export_doc acc env mk ty v d hd hk ha, ?_⟩
  unfold ydoc
  have := yamlImport_doc env cfg (ytree d) [.streamEnd] ty old
  rw [ytree_enc, rt_val _ _ _ env cfg mk yamlFaithful hg hm hx v ty old d hd hs ho (allKeys_true d) hy] at this
  rw [ytree_enc]
  exact this

/-! ### What is never accepted -/

/-- From these events and this state on, the parser never reports the end of the document. -/
def Hop : List YEv → List (YState × Nat) → Prop
  | [], _ => True
  | e :: es, st => ∀ t s', YamlP.parseEvent ⟨e :: es, st, false, false, .noEvent⟩ = .ok (t, s') → t ≠ .DocEnd ∧ (s'.error = true ∨ Hop es s'.state)

theorem parse_events {e : YEv} {es : List YEv} {st : List (YState × Nat)} {c : YEv} {t : Tok} {s' : YamlP}
    (h : YamlP.parseEvent ⟨e :: es, st, false, false, c⟩ = .ok (t, s')) : s'.events = es ∧ s'.first = false := by
  unfold YamlP.parseEvent at h
  simp only at h
  split at h <;> (try split at h) <;> cases h <;> exact ⟨rfl, rfl⟩

theorem parse_cur (e : YEv) (es : List YEv) (st : List (YState × Nat)) (c : YEv) :
    YamlP.parseEvent ⟨e :: es, st, false, false, c⟩ = YamlP.parseEvent ⟨e :: es, st, false, false, .noEvent⟩ := rfl

/-- The invariant: nothing is left to hope for. -/
def NoHope (s : YamlP) : Prop :=
  (s.first = false ∧ (s.error = true ∨ Hop s.events s.state)) ∨
  (s.first = true ∧ s.error = false ∧ s.state = [] ∧ ∀ es, s.events = .streamStart :: es → Hop es [(.Open, 0)])

theorem noHope_parse {es : List YEv} {st : List (YState × Nat)} {c : YEv} (h : Hop es st) :
    Yields (fun x => NoHope x.2 ∧ x.1 ≠ .DocEnd) (YamlP.parseEvent ⟨es, st, false, false, c⟩) := by
  rintro ⟨t, s'⟩ e
  cases es with
  | nil =>
    simp only [YamlP.parseEvent, YamlP.parsingError, Res.ok.injEq, Prod.mk.injEq] at e
    obtain ⟨rfl, rfl⟩ := e
    exact ⟨.inl ⟨rfl, .inl rfl⟩, by simp⟩
  | cons ev es =>
    rw [parse_cur] at e
    obtain ⟨h1, h2⟩ := h t s' e
    obtain ⟨h3, h4⟩ := parse_events e
    exact ⟨.inl ⟨h4, by rw [h3]; exact h2⟩, h1⟩

theorem noHope_string {s : YamlP} (h : NoHope s) : Yields (fun x => NoHope x.2) s.getString := by
  unfold YamlP.getString
  split
  · exact .ok h
  · exact .ok h
  · exact .ok h
  · exact .ub

theorem noHope_scalar {s : YamlP} (h : NoHope s) : Yields (fun x => NoHope x.2) s.scalarText := by
  unfold YamlP.scalarText
  split
  · exact .ok h
  · exact .ub

theorem noHope_watch : Watch YamlP.ops NoHope (fun _ => True) (fun t => t ≠ .DocEnd) where
  next s h := by
    obtain ⟨es, st, f, er, c⟩ := s
    simp only [YamlP.ops, YamlP.getNextToken]
    rcases h with ⟨h1, h2⟩ | ⟨h1, h2, h3, h4⟩
    · simp only at h1 h2
      subst h1
      simp only [Bool.false_eq_true, if_false]
      cases er with
      | true => exact .ok ⟨.inl ⟨rfl, .inl rfl⟩, by simp, by simp⟩
      | false =>
        simp only [Bool.false_eq_true, if_false]
        exact (noHope_parse (h2.resolve_left (by simp))).mono fun x hx => ⟨hx.1, hx.2, fun _ => trivial⟩
    · simp only at h1 h2 h3 h4
      subst h1 h2 h3
      simp only [if_true]
      split
      · simp only [Bool.false_eq_true, if_false]
        exact (noHope_parse (h4 _ rfl)).mono fun x hx => ⟨hx.1, hx.2, fun _ => trivial⟩
      · exact .ok ⟨.inl ⟨rfl, .inl rfl⟩, by simp, by simp⟩
      · exact .ok ⟨.inl ⟨rfl, .inl rfl⟩, by simp, by simp⟩
  getKey s h := noHope_string h
  getInt k s h _ := by
    refine (noHope_scalar h).bind fun x hx => ?_
    simp only
    cases YamlP.scanText k x.1 with
    | ok i => exact .ok hx
    | throw e => exact .throw
    | ub => exact .ub
  getFlt f s h _ := by
    refine (noHope_scalar h).bind fun x hx => ?_
    simp only
    cases YamlP.scanTextFlt f x.1 with
    | ok i => exact .ok hx
    | throw e => exact .throw
    | ub => exact .ub
  getBool s h _ := by
    refine (noHope_string h).bind fun x hx => ?_
    simp only
    split
    · exact .ok hx
    · split
      · exact .ok hx
      · exact .throwStd
  getStr s h _ := noHope_string h
  ignoreData s h := .ok h
  error := by simp
  mapStart := by simp

theorem hop_noEnd : ∀ (es : List YEv) (st : List (YState × Nat)), .docEnd ∉ es → Hop es st
  | [], st, _ => trivial
  | e :: es, st, h => by
    intro t s' hp
    refine ⟨?_, .inr (hop_noEnd es _ (by simp at h; exact h.2))⟩
    have he : e ≠ .docEnd := by rintro rfl; simp at h
    unfold YamlP.parseEvent at hp
    simp only at hp
    split at hp <;> (try split at hp) <;> cases hp <;> first | exact absurd rfl he | simp

theorem hop_scalar {t : Bytes} {k : YState} {n : Nat} {st : List (YState × Nat)} {es : List YEv} (h : Hop es ((k, n + 1) :: st)) :
    Hop (.scalar t :: es) ((k, n) :: st) := by
  intro t s' hp
  simp only [YamlP.parseEvent, Res.ok.injEq, Prod.mk.injEq] at hp
  obtain ⟨rfl, rfl⟩ := hp
  exact ⟨by split <;> simp, .inr h⟩

mutual
theorem hop_node : ∀ (nd : YNode) (k : YState) (n : Nat) (st : List (YState × Nat)) (es : List YEv), yVal k n →
    ((∃ v, nd = ynode v) → Hop es ((k, n + 1) :: st)) → Hop (nodeEvents nd ++ es) ((k, n) :: st)
  | .scalar t, k, n, st, es, hv, h => hop_scalar (h ⟨.scalar t, rfl⟩)
  | .alias, k, n, st, es, hv, h => by intro t s' hp; cases hp
  | .seq ns, k, n, st, es, hv, h => by
    rw [show nodeEvents (.seq ns) ++ es = .seqStart :: (nodeEvents.elems ns ++ (.seqEnd :: es)) by simp [nodeEvents]]
    intro t s' hp
    simp only [YamlP.parseEvent] at hp
    rw [if_neg hv] at hp
    cases hp
    refine ⟨by simp, .inr (hop_elems ns 0 _ _ fun ⟨vs, e⟩ m t s' hp => ?_)⟩
    cases hp
    exact ⟨by simp, .inr (h ⟨.arr vs, by simp [ynode, e]⟩)⟩
  | .map ms, k, n, st, es, hv, h => by
    rw [show nodeEvents (.map ms) ++ es = .mapStart :: (nodeEvents.members ms ++ (.mapEnd :: es)) by simp [nodeEvents]]
    intro t s' hp
    simp only [YamlP.parseEvent] at hp
    rw [if_neg hv] at hp
    cases hp
    refine ⟨by simp, .inr (hop_members ms 0 _ _ rfl fun ⟨vs, e⟩ m hm t s' hp => ?_)⟩
    simp only [YamlP.parseEvent] at hp
    rw [if_neg (by omega)] at hp
    cases hp
    exact ⟨by simp, .inr (h ⟨.obj vs, by simp [ynode, e]⟩)⟩
theorem hop_elems : ∀ (ns : List YNode) (n : Nat) (st : List (YState × Nat)) (es : List YEv),
    ((∃ vs, ns = ynode.elems vs) → ∀ n, Hop es ((.Array, n) :: st)) → Hop (nodeEvents.elems ns ++ es) ((.Array, n) :: st)
  | [], n, st, es, h => h ⟨[], rfl⟩ n
  | nd :: ns, n, st, es, h => by
    rw [nodeEvents.elems, List.append_assoc]
    refine hop_node nd .Array n st _ (by simp [yVal]) fun ⟨v, e⟩ => ?_
    refine hop_elems ns (n + 1) st es fun ⟨vs, e2⟩ => ?_
    exact h ⟨v :: vs, by simp [ynode.elems, e, e2]⟩
theorem hop_members : ∀ (ms : List (YNode × YNode)) (n : Nat) (st : List (YState × Nat)) (es : List YEv), n % 2 = 0 →
    ((∃ vs, ms = ynode.members vs) → ∀ n, n % 2 = 0 → Hop es ((.Map, n) :: st)) → Hop (nodeEvents.members ms ++ es) ((.Map, n) :: st)
  | [], n, st, es, hn, h => h ⟨[], rfl⟩ n hn
  | (k, v) :: ms, n, st, es, hn, h => by
    rw [nodeEvents.members, List.append_assoc, List.append_assoc]
    have hk : (n + 1) % 2 = 1 := by omega
    cases k with
    | scalar t =>
      refine hop_scalar (hop_node v .Map (n + 1) st _ (by simp [yVal]; omega) fun ⟨w, e⟩ => ?_)
      refine hop_members ms (n + 2) st es (by omega) fun ⟨vs, e2⟩ => ?_
      exact h ⟨(t, w) :: vs, by simp [ynode.members, e, e2]⟩
    | alias => intro t s' hp; cases hp
    | seq ns =>
      intro t s' hp
      simp only [YamlP.parseEvent] at hp
      rw [if_pos ⟨trivial, hk⟩] at hp
      cases hp
    | map ns =>
      intro t s' hp
      simp only [YamlP.parseEvent] at hp
      rw [if_pos ⟨trivial, hk⟩] at hp
      cases hp
end

mutual
theorem node_noEnd : ∀ nd : YNode, .docEnd ∉ nodeEvents nd
  | .scalar _ => by simp [nodeEvents]
  | .alias => by simp [nodeEvents]
  | .seq ns => by simp [nodeEvents, node_noEnd_elems ns]
  | .map ms => by simp [nodeEvents, node_noEnd_members ms]
theorem node_noEnd_elems : ∀ ns : List YNode, .docEnd ∉ nodeEvents.elems ns
  | [] => by simp [nodeEvents.elems]
  | n :: ns => by simp [nodeEvents.elems, node_noEnd n, node_noEnd_elems ns]
theorem node_noEnd_members : ∀ ms : List (YNode × YNode), .docEnd ∉ nodeEvents.members ms
  | [] => by simp [nodeEvents.members]
  | (k, v) :: ms => by simp [nodeEvents.members, node_noEnd k, node_noEnd v, node_noEnd_members ms]
end

mutual
theorem ynode_events : ∀ v : YTree, nodeEvents (ynode v) = yevents v
  | .scalar _ => rfl
  | .arr vs => by simp [ynode, nodeEvents, yevents, ynode_elems vs]
  | .obj ms => by simp [ynode, nodeEvents, yevents, ynode_members ms]
theorem ynode_elems : ∀ vs : List YTree, nodeEvents.elems (ynode.elems vs) = yevents.elems vs
  | [] => rfl
  | v :: vs => by simp [ynode.elems, nodeEvents.elems, yevents.elems, ynode_events v, ynode_elems vs]
theorem ynode_members : ∀ ms : List (Bytes × YTree), nodeEvents.members (ynode.members ms) = yevents.members ms
  | [] => rfl
  | (k, v) :: ms => by simp [ynode.members, nodeEvents.members, yevents.members, ynode_events v, ynode_members ms, nodeEvents]
end

/-- What is accepted is a complete document without aliases and with scalar keys only. -/
theorem yaml_accepted (env : Env) (cfg : Cfg) (ty : Ty) (old x : Val) (nd : YNode) (rest es : List YEv)
    (hp : es <+: [.streamStart, .docStart] ++ nodeEvents nd ++ .docEnd :: rest) (h : yamlImport env cfg ty old es = .ok x) :
    ∃ v rest', nd = ynode v ∧ es = [.streamStart, .docStart] ++ yevents v ++ .docEnd :: rest' := by
  have never : NoHope (YamlP.ofEvents es) → False := by
    intro hn
    unfold yamlImport at h
    obtain ⟨y, hy, -⟩ := Res.bind_eq_ok.1 h
    exact import_never noHope_watch (by simp) env cfg ty old hn y hy
  by_cases hd : .docEnd ∈ es
  · obtain ⟨tail, ht⟩ := hp
    have hes : ∃ rest', es = [.streamStart, .docStart] ++ nodeEvents nd ++ .docEnd :: rest' := by
      rcases List.append_eq_append_iff.1 ht with ⟨a, h1, h2⟩ | ⟨a, h1, h2⟩
      · exfalso
        have : .docEnd ∈ [YEv.streamStart, .docStart] ++ nodeEvents nd := by rw [h1]; simp [hd]
        simp [node_noEnd nd] at this
      · cases a with
        | nil =>
          exfalso
          rw [List.append_nil] at h1
          rw [h1] at hd
          simp [node_noEnd nd] at hd
        | cons e a =>
          simp only [List.cons_append, List.cons.injEq] at h2
          exact ⟨a, by rw [h1, h2.1]⟩
    obtain ⟨rest', hes⟩ := hes
    by_cases hv : ∃ v, nd = ynode v
    · obtain ⟨v, rfl⟩ := hv
      exact ⟨v, rest', rfl, by rw [hes, ynode_events]⟩
    · exfalso
      refine never (.inr ⟨rfl, rfl, rfl, ?_⟩)
      rintro es' he
      rw [YamlP.ofEvents, hes] at he
      simp only [List.cons_append, List.nil_append, List.cons.injEq, true_and] at he
      subst he
      intro t s' hp
      cases hp
      exact ⟨by simp, .inr (hop_node nd .Open 1 [] _ (by simp [yVal]) fun hv' => absurd hv' hv)⟩
  · exfalso
    refine never (.inr ⟨rfl, rfl, rfl, ?_⟩)
    intro es' he
    simp only [YamlP.ofEvents] at he
    exact hop_noEnd es' _ (by rw [he] at hd; simpa using hd)

/-! ### Chunks -/

theorem read_chunk {s : StrIn} (h : s.pos ≤ s.data.length) (n : Nat) :
    yamlReadChunk n s = .ok (s.rest.take n, true, { s with pos := s.pos + (s.rest.take n).length, good := true }) := by
  unfold yamlReadChunk StrIn.read
  rw [if_neg (by omega)]
  simp only [Res.ok_bind, Res.pure_eq, StrIn.rest]
  have : s.pos + ((s.data.drop s.pos).take n).length ≤ s.data.length := by
    simp only [List.length_take, List.length_drop]
    omega
  rw [decide_eq_true this]

theorem read_chunks : ∀ (ns : List Nat) (s : StrIn), s.pos ≤ s.data.length →
    ∃ cs s', yamlReadChunks ns s = .ok (cs, s') ∧ cs.length = ns.length ∧ cs.flatten = s.rest.take ns.sum ∧ s'.data = s.data ∧
      s'.rest = s.rest.drop ns.sum ∧ s'.pos ≤ s'.data.length
  | [], s, h => ⟨[], s, rfl, rfl, by simp, rfl, by simp, h⟩
  | n :: ns, s, h => by
    have hle : s.pos + (s.rest.take n).length ≤ s.data.length := by
      simp only [StrIn.rest, List.length_take, List.length_drop]
      omega
    obtain ⟨cs, s', e, h1, h2, h3, h4, h5⟩ := read_chunks ns { s with pos := s.pos + (s.rest.take n).length, good := true } hle
    have hr : StrIn.rest { s with pos := s.pos + (s.rest.take n).length, good := true } = s.rest.drop n := by
      simp only [StrIn.rest, List.drop_drop, List.length_take, List.length_drop]
      by_cases hn : n ≤ s.data.length - s.pos
      · rw [Nat.min_eq_left hn]
      · rw [Nat.min_eq_right (by omega), List.drop_of_length_le (by omega), List.drop_of_length_le (by omega)]
    rw [hr] at h2 h4
    refine ⟨s.rest.take n :: cs, s', ?_, by simp [h1], ?_, h3, ?_, h5⟩
    · rw [yamlReadChunks, read_chunk h]
      simp only [Res.ok_bind, e]
      rfl
    · simp only [List.flatten_cons, h2, List.sum_cons]
      rw [List.take_add]
    · rw [h4, List.drop_drop, List.sum_cons]

theorem writeLines_append (ind : Bytes) : ∀ a b : Bytes, yamlWriteLines ind (a ++ b) = yamlWriteLines ind a ++ yamlWriteLines ind b
  | [], b => rfl
  | c :: a, b => by
    simp only [List.cons_append, yamlWriteLines, writeLines_append ind a b]
    split <;> simp

theorem writeChunks_done (n : Nat) : ∀ cs : List Bytes, yamlWriteChunks n true cs = yamlWriteLines (List.replicate n 0x20) cs.flatten
  | [] => rfl
  | c :: cs => by simp [yamlWriteChunks, yamlWriteChunk, writeChunks_done n cs, writeLines_append]

theorem writeChunks (n : Nat) (cs : List Bytes) (h : cs ≠ []) :
    yamlWriteChunks n false cs = List.replicate n 0x20 ++ yamlWriteLines (List.replicate n 0x20) cs.flatten := by
  cases cs with
  | nil => exact absurd rfl h
  | cons c cs => simp [yamlWriteChunks, yamlWriteChunk, writeChunks_done n cs, writeLines_append]

end Thors
