import Verif.Model.AnyBlock
import Verif.Proofs.AnyBlock
import Verif.Proofs.BsonPresents
import Verif.Proofs.YamlPresents
import Verif.Proofs.StreamImport
import Verif.Spec.SameDoc
/-
What an `AnyBlock` captures, for any reader.
-/
namespace Thors
open Spec StrIn

section
variable {K X : Type} (sem : ScalarSem K X)

/-- The text captured from a document, if the reader has a text for each of its scalars. -/
def anyText : Tr K X → Option Bytes
  | .scalar x => sem.raw x
  | .arr ts => (elems ts).map fun ps => [0x5B] ++ commas ps ++ [0x5D]
  | .obj ms => (members ms).map fun ps => [0x7B] ++ commas ps ++ [0x7D]
where
  elems : List (Tr K X) → Option (List Bytes)
  | [] => some []
  | t :: ts => (anyText t).bind fun p => (elems ts).map fun ps => p :: ps
  members : List (K × Tr K X) → Option (List Bytes)
  | [] => some []
  | (k, t) :: ms => (anyText t).bind fun p => (members ms).map fun ps => ([0x22] ++ sem.key k ++ [0x22, 0x3A] ++ p) :: ps
end

section
variable {K X σ : Type} (sem : ScalarSem K X) (o : POps σ)

theorem any_after_gen (v : Tr K X) : ∀ {Q : σ → Prop} {s : σ} (a b : Bytes), anyText sem v = some b → After o sem v Q s →
    ∃ s', anyToken o v.tok a (PI.init s) = .ok (a ++ b, PI.init s') ∧ Q s' := by
  induction v using Spec.Tr.induct with
  | hs x =>
    intro Q s a b hb h
    obtain ⟨s', e, hq⟩ := h.2.2.2.2.2.1 b hb
    refine ⟨s', ?_, hq⟩
    show anyToken o .Value a (PI.init s) = _
    rw [anyToken]
    simp [PI.init, e]
  | ha vs ih =>
    intro Q s a b hb h
    replace h := h.2
    have key : ∀ (vs : List (Tr K X)), (∀ v ∈ vs, ∀ {Q : σ → Prop} {s : σ} (a b : Bytes), anyText sem v = some b → After o sem v Q s →
        ∃ s', anyToken o v.tok a (PI.init s) = .ok (a ++ b, PI.init s') ∧ Q s') →
        ∀ (s : σ) (first : Bool) (a : Bytes) (ps : List Bytes), anyText.elems sem vs = some ps → After.elems o sem vs Q s →
        ∃ s', anyArray o first a (PI.init s) = .ok (a ++ tailText first ps ++ [0x5D], PI.init s') ∧ Q s' := by
      intro vs
      induction vs with
      | nil =>
        intro _ s first a ps hp ⟨s1, e1, hq⟩
        cases hp
        refine ⟨s1, ?_, hq⟩
        rw [anyArray, gets_next o e1]
        cases first <;> simp [tailText, commas]
      | cons v vs ih2 =>
        intro ih s first a ps hp ⟨s1, e1, h⟩
        simp only [anyText.elems, Option.bind_eq_some_iff, Option.map_eq_some_iff] at hp
        obtain ⟨b, hb, ps, hps, rfl⟩ := hp
        obtain ⟨s2, e2, h2⟩ := ih v (by simp) (if first then a else a ++ [0x2C]) b hb h
        obtain ⟨s3, e3, h3⟩ := ih2 (fun v hv => ih v (by simp [hv])) s2 false ((if first then a else a ++ [0x2C]) ++ b) ps hps h2
        refine ⟨s3, ?_, h3⟩
        rw [anyArray, gets_next o e1]
        have hne : v.tok ≠ .ArrayEnd := by cases v <;> simp [Tr.tok]
        simp only [Res.ok_bind]
        rw [if_neg hne, e2]
        simp only [Res.ok_bind]
        rw [e3, tailText_cons]
    simp only [anyText, Option.map_eq_some_iff] at hb
    obtain ⟨ps, hps, rfl⟩ := hb
    obtain ⟨s', e, hq⟩ := key vs ih s true (a ++ [0x5B]) ps hps h
    refine ⟨s', ?_, hq⟩
    show anyToken o .ArrayStart a (PI.init s) = _
    rw [anyToken, e]
    simp [tailText]
  | ho ms ih =>
    intro Q s a b hb h
    replace h := h.2
    have key : ∀ (ms : List (K × Tr K X)), (∀ m ∈ ms, ∀ {Q : σ → Prop} {s : σ} (a b : Bytes), anyText sem m.2 = some b → After o sem m.2 Q s →
        ∃ s', anyToken o m.2.tok a (PI.init s) = .ok (a ++ b, PI.init s') ∧ Q s') →
        ∀ (s : σ) (first : Bool) (a : Bytes) (ps : List Bytes), anyText.members sem ms = some ps → After.members o sem ms Q s →
        ∃ s', anyMap o first a (PI.init s) = .ok (a ++ tailText first ps ++ [0x7D], PI.init s') ∧ Q s' := by
      intro ms
      induction ms with
      | nil =>
        intro _ s first a ps hp ⟨s1, e1, hq⟩
        cases hp
        refine ⟨s1, ?_, hq⟩
        rw [anyMap, gets_next o e1]
        cases first <;> simp [tailText, commas]
      | cons m ms ih2 =>
        obtain ⟨k, v⟩ := m
        intro ih s first a ps hp ⟨s1, e1, ⟨s2, e2, s3, e3, h⟩, _⟩
        simp only [anyText.members, Option.bind_eq_some_iff, Option.map_eq_some_iff] at hp
        obtain ⟨b, hb, ps, hps, rfl⟩ := hp
        obtain ⟨s4, e4, h4⟩ := ih (k, v) (by simp) ((if first then a else a ++ [0x2C]) ++ [0x22] ++ sem.key k ++ [0x22, 0x3A]) b hb h
        obtain ⟨s5, e5, h5⟩ := ih2 (fun v hv => ih v (by simp [hv])) s4 false _ ps hps h4
        refine ⟨s5, ?_, h5⟩
        rw [anyMap, gets_next o e1]
        simp only [Res.ok_bind, PI.init] at *
        rw [if_neg (by simp), if_neg (by simp), e2]
        simp only [Res.ok_bind]
        have := gets_next o e3
        unfold Gets at this
        simp only [PI.init] at this
        rw [this]
        simp only [Res.ok_bind]
        rw [e4]
        simp only [Res.ok_bind]
        rw [e5, ← tailText_cons]
        simp
    simp only [anyText, Option.map_eq_some_iff] at hb
    obtain ⟨ps, hps, rfl⟩ := hb
    obtain ⟨s', e, hq⟩ := key ms ih s true (a ++ [0x7B]) ps hps h
    refine ⟨s', ?_, hq⟩
    show anyToken o .MapStart a (PI.init s) = _
    rw [anyToken, e]
    simp [tailText]

/-- A whole document. -/
theorem any_import {v : Tr K X} {R : σ → Prop} {s s1 : σ} (h1 : o.next s = .ok (.DocStart, s1))
    (h2 : Presents o sem v (fun s => ∃ s', o.next s = .ok (.DocEnd, s') ∧ R s') s1) (a b : Bytes) (hb : anyText sem v = some b) :
    ∃ s', importAny o a (PI.init s) = .ok (a ++ b, PI.init s') ∧ R s' := by
  obtain ⟨s2, e2, h3⟩ := h2
  obtain ⟨s3, e3, s4, e4, hr⟩ := any_after_gen sem o v a b hb h3
  refine ⟨s4, ?_, hr⟩
  rw [importAny, gets_next o h1]
  simp only [Res.ok_bind]
  rw [if_neg (by simp), anyScan, gets_next o e2]
  simp only [Res.ok_bind]
  rw [e3]
  simp only [Res.ok_bind]
  rw [gets_next o e4]
  rfl
end

/-! ### BSON: documents with one element -/

namespace BsonP

theorem wrapped_presents {ig : BsonP → Res BsonP} (I : Skipper ig) {k : Bytes} {t : BTree} (hkey : (0x00 : Byte) ∉ k) (hk : AllKeys (fun k => (0x00 : Byte) ∉ k) t)
    (hs : AllScalars BScalar.valid t) (hlen : (framed (btype t :: k ++ [0x00] ++ bpayload t)).length < 2 ^ 31) {rest d : Bytes}
    (hin : BIn (framed (btype t :: k ++ [0x00] ++ bpayload t) ++ rest) (StrIn.ofBytes d)) :
    DocPresents ig t rest (ofBytes .Value d) := by
  have hfl := framed_length (btype t :: k ++ [0x00] ++ bpayload t)
  rw [hfl] at hlen
  simp only [framed, List.append_assoc] at hin
  obtain ⟨inp', e, hi'⟩ := hin.readLE (by simp at hlen ⊢; omega) (by simp at hlen ⊢; omega)
  have hlp : ((4 + (btype t :: k ++ ([0x00] ++ bpayload t)).length + 1 : Nat) : Int) = 4 + (2 + k.length + (bpayload t).length) + 1 := by simp; omega
  rw [hlp] at e
  generalize hs0 : ({ ofBytes .Value d with next := .Key, conts := [.Value, .Value], inp := inp', size := [(4 + (2 + k.length + (bpayload t).length) + 1 : Int)], left := [(4 + (2 + k.length + (bpayload t).length) + 1 : Int) - 4] } : BsonP) = s0
  have h0 : (opsI ig).next (ofBytes .Value d) = .ok (.DocStart, s0) := by
    show getNextToken _ = _
    rw [next_handOut rfl (by simp [ofBytes]), handOut]
    simp only [ofBytes, openLevel, e, Res.ok_bind]
    subst hs0
    rfl
  refine ⟨s0, h0, ?_⟩
  have hr : Ready .Value [.Value] (1 + k.length + 1 + (bpayload t).length + 1) [] [(4 + (2 + k.length + (bpayload t).length) + 1 : Int)] (btype t :: k ++ 0x00 :: (bpayload t ++ 0x00 :: rest)) s0 := by
    refine ⟨s0, ?_, ?_, ?_, ?_, ?_, ?_, ?_⟩
    · subst hs0; rfl
    · subst hs0; simpa using hi'
    · subst hs0; rfl
    · subst hs0
      simp only
      congr 1
      omega
    · subst hs0; rfl
    · rw [if_neg (by omega)]
      subst hs0; rfl
    · subst hs0; rfl
  obtain ⟨s', ha, _, e'⟩ := ready_next hkey (by omega) (by simp at hlen; omega) hr
  rw [if_neg (by simp)] at e'
  obtain ⟨s1, e1, h1⟩ := all_good I t hk hs _ _ _ _ _ _ _ ha
  refine ⟨s1, e'.trans e1, after_mono (opsI ig) bsem _ ?_ h1⟩
  intro s2 ⟨s3, e3, h3⟩
  rw [if_pos rfl] at h3
  obtain ⟨inp4, e4, hi4⟩ := readEnd_zero h3.inp h3.left
  have hn3 : s3.next = .DocEnd := h3.next
  refine ⟨{ s3 with inp := inp4, left := [(1 : Int) - 1], next := .Error }, ?_, hi4⟩
  show s2.getNextToken = _
  rw [getNextToken, e3]
  simp only [Res.ok_bind]
  rw [if_neg (by rw [hn3]; simp), handOut, hn3]
  simp only [h3.conts, List.head?_cons, if_true, e4, Res.ok_bind]
  rfl

end BsonP

/-! ### Texts -/

theorem dec_natText {t : Bytes} {n : Nat} (h : Dec t n) : ¬ leadingZero t → t = natText n := by
  induction h with
  | one h =>
    intro _
    cases h with
    | mk d hd => rw [natText, dif_pos hd]
  | @snoc t n d c ht h ih =>
    intro hz
    cases h with
    | mk d hd =>
      cases t with
      | nil => exact absurd rfl (dec_iff.1 ht).1
      | cons x xs =>
        have hx : x ≠ 0x30 := by
          rintro rfl
          apply hz
          cases xs <;> simp [leadingZero]
        have h1 : ¬ leadingZero (x :: xs) := by
          intro h2
          unfold leadingZero at h2
          split at h2
          · rename_i e; cases e; exact hx rfl
          · exact h2
        have e := ih h1
        have hn : 0 < n := by
          rcases Nat.eq_zero_or_pos n with rfl | h
          · rw [natText, dif_pos (by decide)] at e
            cases e
            exact absurd rfl hx
          · exact h
        have e2 : natText (n * 10 + d) = natText n ++ [UInt8.ofNat (0x30 + d)] := by
          rw [natText, dif_neg (by omega), show (n * 10 + d) / 10 = n by omega, show (n * 10 + d) % 10 = d by omega]
        rw [e2, ← e]

theorem lit_intText {t : Bytes} {i : Int} (h : IntLit t i) (hz : ¬ litLeadingZero t) (hs : t.head? = some 0x2D ↔ i < 0) : t = intText i := by
  cases h with
  | @pos t n h =>
    have h0 : t.head? ≠ some 0x2D := fun hh => by have := hs.1 hh; omega
    have hz' : ¬ leadingZero t := by
      intro h2
      apply hz
      unfold litLeadingZero
      split
      · simp at h0
      · exact h2
    rw [intText, if_neg (by omega)]
    exact dec_natText h hz'
  | @neg t n h =>
    have h0 : -(n : Int) < 0 := hs.1 rfl
    rw [intText, if_pos h0, Int.natAbs_neg, Int.natAbs_natCast, ← dec_natText h hz]

mutual
/-- The text captured from the BSON document is the compact text of the JSON document that says the same. -/
theorem bson_anyText (conv : Bool) {pr : Nat → Nat → Bytes} : ∀ (v : JTree) (u : BTree) (t : Bytes), JText pr v t → SameDoc conv v u → WholeNumbers v → allStrings JStr.plain v = true →
    allKeys JStr.plain v = true → anyText bsem u = some (compact v)
  | .scalar x, .scalar y, t, ht, h, hw, hs, _ => by
    simp only [anyText, compact, compactWith]
    cases x with
    | null => cases y <;> first | exact h.elim | rfl
    | bool b =>
      cases y with
      | bool c => cases h; rfl
      | _ => exact h.elim
    | int t i =>
      obtain ⟨rfl, h1, h2⟩ := ht
      cases y with
      | int32 v => obtain ⟨rfl, h3⟩ := h; simp only [bsem, JScalar.written, ← lit_intText h1 h2 h3]
      | int64 v => obtain ⟨rfl, h3⟩ := h; simp only [bsem, JScalar.written, ← lit_intText h1 h2 h3]
      | _ => exact h.elim
    | frac t d => exact hw.elim
    | str s =>
      cases y with
      | str c =>
        cases h
        have hp : s.val conv = s.raw := by
          unfold JStr.val
          split
          · exact body_plain ht.1 (by simpa [allStrings, JStr.plain] using hs)
          · rfl
        simp [bsem, JScalar.written, hp]
      | _ => exact h.elim
  | .arr vs, .arr us, t, ht, h, hw, hs, hk => by
    have hl : ∃ ps, JText.elems pr vs ps := by
      cases vs with
      | nil => exact ⟨[], rfl⟩
      | cons v vs => obtain ⟨ps, h, -⟩ := ht; exact ⟨ps, h⟩
    obtain ⟨ps, hps⟩ := hl
    simp only [anyText, compact, compactWith, bson_anyText_elems conv vs us ps hps h hw hs hk, Option.map_some]
  | .obj ms, .obj ns, t, ht, h, hw, hs, hk => by
    have hl : ∃ ps, JText.members pr ms ps := by
      cases ms with
      | nil => exact ⟨[], rfl⟩
      | cons v vs => obtain ⟨ps, h, -⟩ := ht; exact ⟨ps, h⟩
    obtain ⟨ps, hps⟩ := hl
    simp only [anyText, compact, compactWith, bson_anyText_members conv ms ns ps hps h hw hs hk, Option.map_some]
  | .scalar _, .arr _, _, _, h, _, _, _ => h.elim
  | .scalar _, .obj _, _, _, h, _, _, _ => h.elim
  | .arr _, .scalar _, _, _, h, _, _, _ => h.elim
  | .arr _, .obj _, _, _, h, _, _, _ => h.elim
  | .obj _, .scalar _, _, _, h, _, _, _ => h.elim
  | .obj _, .arr _, _, _, h, _, _, _ => h.elim
theorem bson_anyText_elems (conv : Bool) {pr : Nat → Nat → Bytes} : ∀ (vs : List JTree) (us : List BTree) (ps : List Bytes), JText.elems pr vs ps → SameDoc.elems conv vs us →
    WholeNumbers.elems vs → allStrings.elems JStr.plain vs = true → allKeys.elems JStr.plain vs = true → anyText.elems bsem us = some (compactWith.elems JStr.raw vs)
  | [], [], _, _, _, _, _, _ => rfl
  | v :: vs, u :: us, ps, ht, h, hw, hs, hk => by
    obtain ⟨w1, tv, w2, ps', -, -, h1, h2, -⟩ := ht
    simp only [allStrings.elems, allKeys.elems, Bool.and_eq_true] at hs hk
    simp only [anyText.elems, compactWith.elems, bson_anyText conv v u tv h1 h.1 hw.1 hs.1 hk.1, bson_anyText_elems conv vs us ps' h2 h.2 hw.2 hs.2 hk.2, Option.bind_some, Option.map_some]
    rfl
  | [], _ :: _, _, _, h, _, _, _ => h.elim
  | _ :: _, [], _, _, h, _, _, _ => h.elim
theorem bson_anyText_members (conv : Bool) {pr : Nat → Nat → Bytes} : ∀ (vs : List (JStr × JTree)) (us : List (Bytes × BTree)) (ps : List Bytes), JText.members pr vs ps → SameDoc.members conv vs us →
    WholeNumbers.members vs → allStrings.members JStr.plain vs = true → allKeys.members JStr.plain vs = true → anyText.members bsem us = some (compactWith.members JStr.raw vs)
  | [], [], _, _, _, _, _, _ => rfl
  | (k, v) :: vs, (l, u) :: us, ps, ht, h, hw, hs, hk => by
    obtain ⟨w1, w2, w3, tv, w4, ps', -, -, -, -, hb, h1, h2, -⟩ := ht
    simp only [allStrings.members, allKeys.members, Bool.and_eq_true] at hs hk
    obtain ⟨rfl, h3, h4⟩ := h
    have hp : k.val conv = k.raw := by
      unfold JStr.val
      split
      · exact body_plain hb (by simpa [JStr.plain] using hk.1)
      · rfl
    simp only [anyText.members, compactWith.members, bson_anyText conv v u tv h1 h3 hw.1 hs.1 hk.2.1, bson_anyText_members conv vs us ps' h2 h4 hw.2 hs.2 hk.2.2, Option.bind_some, Option.map_some]
    simp [bsem, hp, compact]
  | [], _ :: _, _, _, h, _, _, _ => h.elim
  | _ :: _, [], _, _, h, _, _, _ => h.elim
end

mutual
/-- The text captured from a YAML document without string values. -/
theorem yaml_anyText (conv : Bool) {pr : Nat → Nat → Bytes} : ∀ (v : JTree) (t : Bytes), JText pr v t → allStrings (fun _ => false) v = true →
    allKeys JStr.plain v = true → anyText ysem (asYaml conv v) = some (compact v)
  | .scalar x, t, ht, hs, _ => by
    cases x with
    | str s => simp [allStrings] at hs
    | _ => rfl
  | .arr vs, t, ht, hs, hk => by
    have hl : ∃ ps, JText.elems pr vs ps := by
      cases vs with
      | nil => exact ⟨[], rfl⟩
      | cons v vs => obtain ⟨ps, h, -⟩ := ht; exact ⟨ps, h⟩
    obtain ⟨ps, hps⟩ := hl
    simp only [anyText, asYaml, compact, compactWith, yaml_anyText_elems conv vs ps hps hs hk, Option.map_some]
  | .obj ms, t, ht, hs, hk => by
    have hl : ∃ ps, JText.members pr ms ps := by
      cases ms with
      | nil => exact ⟨[], rfl⟩
      | cons v vs => obtain ⟨ps, h, -⟩ := ht; exact ⟨ps, h⟩
    obtain ⟨ps, hps⟩ := hl
    simp only [anyText, asYaml, compact, compactWith, yaml_anyText_members conv ms ps hps hs hk, Option.map_some]
theorem yaml_anyText_elems (conv : Bool) {pr : Nat → Nat → Bytes} : ∀ (vs : List JTree) (ps : List Bytes), JText.elems pr vs ps →
    allStrings.elems (fun _ => false) vs = true → allKeys.elems JStr.plain vs = true → anyText.elems ysem (asYaml.elems conv vs) = some (compactWith.elems JStr.raw vs)
  | [], _, _, _, _ => rfl
  | v :: vs, ps, ht, hs, hk => by
    obtain ⟨w1, tv, w2, ps', -, -, h1, h2, -⟩ := ht
    simp only [allStrings.elems, allKeys.elems, Bool.and_eq_true] at hs hk
    simp only [asYaml.elems, anyText.elems, compactWith.elems, yaml_anyText conv v tv h1 hs.1 hk.1, yaml_anyText_elems conv vs ps' h2 hs.2 hk.2, Option.bind_some, Option.map_some]
    rfl
theorem yaml_anyText_members (conv : Bool) {pr : Nat → Nat → Bytes} : ∀ (vs : List (JStr × JTree)) (ps : List Bytes), JText.members pr vs ps →
    allStrings.members (fun _ => false) vs = true → allKeys.members JStr.plain vs = true → anyText.members ysem (asYaml.members conv vs) = some (compactWith.members JStr.raw vs)
  | [], _, _, _, _ => rfl
  | (k, v) :: vs, ps, ht, hs, hk => by
    obtain ⟨w1, w2, w3, tv, w4, ps', -, -, -, -, hb, h1, h2, -⟩ := ht
    simp only [allStrings.members, allKeys.members, Bool.and_eq_true] at hs hk
    have hp : k.val conv = k.raw := by
      unfold JStr.val
      split
      · exact body_plain hb (by simpa [JStr.plain] using hk.1)
      · rfl
    simp only [asYaml.members, anyText.members, compactWith.members, yaml_anyText conv v tv h1 hs.1 hk.2.1, yaml_anyText_members conv vs ps' h2 hs.2 hk.2.2, Option.bind_some, Option.map_some]
    simp [ysem, hp, compact]
end

mutual
/-- The text captured from a JSON document on a stream. -/
theorem stream_anyText (conv : Bool) {pr : Nat → Nat → Bytes} : ∀ (v : JTree) (t : Bytes), JText pr v t → allStrings JStr.streamSkips v = true →
    allKeys JStr.plain v = true → anyText (jssem conv) v = some (compact v)
  | .scalar x, t, ht, hs, _ => by
    cases x with
    | str s => simp only [allStrings] at hs; simp [anyText, jssem, hs, compact, compactWith, JScalar.written]
    | _ => rfl
  | .arr vs, t, ht, hs, hk => by
    have hl : ∃ ps, JText.elems pr vs ps := by
      cases vs with
      | nil => exact ⟨[], rfl⟩
      | cons v vs => obtain ⟨ps, h, -⟩ := ht; exact ⟨ps, h⟩
    obtain ⟨ps, hps⟩ := hl
    simp only [anyText, compact, compactWith, stream_anyText_elems conv vs ps hps hs hk, Option.map_some]
  | .obj ms, t, ht, hs, hk => by
    have hl : ∃ ps, JText.members pr ms ps := by
      cases ms with
      | nil => exact ⟨[], rfl⟩
      | cons v vs => obtain ⟨ps, h, -⟩ := ht; exact ⟨ps, h⟩
    obtain ⟨ps, hps⟩ := hl
    simp only [anyText, compact, compactWith, stream_anyText_members conv ms ps hps hs hk, Option.map_some]
theorem stream_anyText_elems (conv : Bool) {pr : Nat → Nat → Bytes} : ∀ (vs : List JTree) (ps : List Bytes), JText.elems pr vs ps →
    allStrings.elems JStr.streamSkips vs = true → allKeys.elems JStr.plain vs = true → anyText.elems (jssem conv) vs = some (compactWith.elems JStr.raw vs)
  | [], _, _, _, _ => rfl
  | v :: vs, ps, ht, hs, hk => by
    obtain ⟨w1, tv, w2, ps', -, -, h1, h2, -⟩ := ht
    simp only [allStrings.elems, allKeys.elems, Bool.and_eq_true] at hs hk
    simp only [anyText.elems, compactWith.elems, stream_anyText conv v tv h1 hs.1 hk.1, stream_anyText_elems conv vs ps' h2 hs.2 hk.2, Option.bind_some, Option.map_some]
    rfl
theorem stream_anyText_members (conv : Bool) {pr : Nat → Nat → Bytes} : ∀ (vs : List (JStr × JTree)) (ps : List Bytes), JText.members pr vs ps →
    allStrings.members JStr.streamSkips vs = true → allKeys.members JStr.plain vs = true → anyText.members (jssem conv) vs = some (compactWith.members JStr.raw vs)
  | [], _, _, _, _ => rfl
  | (k, v) :: vs, ps, ht, hs, hk => by
    obtain ⟨w1, w2, w3, tv, w4, ps', -, -, -, -, hb, h1, h2, -⟩ := ht
    simp only [allStrings.members, allKeys.members, Bool.and_eq_true] at hs hk
    have hp : k.val conv = k.raw := by
      unfold JStr.val
      split
      · exact body_plain hb (by simpa [JStr.plain] using hk.1)
      · rfl
    simp only [anyText.members, compactWith.members, stream_anyText conv v tv h1 hs.1 hk.2.1, stream_anyText_members conv vs ps' h2 hs.2 hk.2.2, Option.bind_some, Option.map_some]
    simp [jssem, hp, compact]
end

/-- The import of a stream into an `AnyBlock` that holds the text `a` (as `jsonImportAny`): the text it then holds, and the stream. -/
noncomputable def jsonStreamImportAny (conv : Bool) (a : Bytes) (i : IStr) : Res (Bytes × IStr) := do
  let (v, p) ← importAny JsonS.ops a (PI.init (JsonS.ofStream i conv))
  return (v, p.inner.lex.inp)

/-- The import of BSON bytes into an `AnyBlock`. BsonThor.h:32-37: the document of an `AnyBlock` is taken to be one of a single value. -/
noncomputable def bsonImportAny (a t : Bytes) : Res Bytes := do
  let (v, _) ← importAny BsonP.ops a (PI.init (BsonP.ofBytes .Value t))
  return v

/-- The import of YAML events into an `AnyBlock`. -/
noncomputable def yamlImportAny (a : Bytes) (es : List YEv) : Res Bytes := do
  let (v, _) ← importAny YamlP.ops a (PI.init (YamlP.ofEvents es))
  return v

theorem yamlImportAny_doc {v : YTree} {b : Bytes} (h : anyText ysem v = some b) (a : Bytes) (es : List YEv) :
    yamlImportAny a ([.streamStart, .docStart] ++ yevents v ++ .docEnd :: es) = .ok (a ++ b) := by
  obtain ⟨s1, h1, h2⟩ := ydoc_presents v es
  obtain ⟨s', e, -⟩ := any_import ysem YamlP.ops h1 h2 a b h
  rw [yamlImportAny, e]
  rfl

theorem bsonImportAny_doc {k : Bytes} {u : BTree} {b : Bytes} (h : anyText bsem u = some b) (hkey : (0x00 : Byte) ∉ k) (hk : AllKeys (fun k => (0x00 : Byte) ∉ k) u)
    (hs : AllScalars BScalar.valid u) (hlen : (framed (btype u :: k ++ [0x00] ++ bpayload u)).length < 2 ^ 31) (a rest : Bytes) :
    bsonImportAny a (framed (btype u :: k ++ [0x00] ++ bpayload u) ++ rest) = .ok (a ++ b) := by
  obtain ⟨s1, h1, h2⟩ := BsonP.wrapped_presents BsonP.skipper_ignore hkey hk hs hlen (rest := rest)
    (d := framed (btype u :: k ++ [0x00] ++ bpayload u) ++ rest) ⟨rfl, Nat.zero_le _, rfl⟩
  obtain ⟨s', e, -⟩ := any_import bsem BsonP.ops h1 h2 a b h
  rw [bsonImportAny, e]
  rfl

theorem jsonStreamImportAny_doc {conv : Bool} {v : JTree} {w tv post b : Bytes} (h : anyText (jssem conv) v = some b) (hw : Ws w) (hv : JText codePair v tv)
    (hp : Ends v post) (hn : ∀ x, v = .scalar x → isNum x = true → post ≠ []) {i : IStr} (hi : OkS (w ++ tv ++ post) i) (a : Bytes) :
    ∃ i', jsonStreamImportAny conv a i = .ok (a ++ b, i') ∧ OkS post i' := by
  have h0 : (PI.init (JsonS.ofStream i conv)).getToken JsonS.ops = .ok (.DocStart, PI.init ⟨(JsonS.ofStream i conv).lex, ⟨.Done, .Init, [], true⟩⟩) := rfl
  have hpr := presents_stream true conv v tv hv ⟨.Done, .Init, [], true⟩ w post ⟨(JsonS.ofStream i conv).lex, ⟨.Done, .Init, [], true⟩⟩ (.init hw) (by
    cases v with
    | scalar x => exact ⟨hp, fun _ => hn x rfl⟩
    | _ => trivial) (stream_start (conv := conv) hi)
  obtain ⟨s2, e2, h3⟩ := hpr
  obtain ⟨⟨l, c⟩, e3, hc, h4, h5⟩ := any_after_gen (jssem conv) JsonS.ops v a b h h3
  simp only at hc
  subst hc
  refine ⟨l.inp, ?_, h4⟩
  rw [jsonStreamImportAny, importAny, h0]
  simp only [Res.ok_bind]
  rw [if_neg (by simp), anyScan, gets_next JsonS.ops e2]
  simp only [Res.ok_bind]
  rw [e3]
  rfl

end Thors
