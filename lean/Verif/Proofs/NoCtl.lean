import Verif.Spec.JsonText
import Verif.Proofs.JsonInt
/-
No text of the JSON grammar contains the byte 0x01.
-/
namespace Thors
open Spec StrIn

theorem ws_no_ctl {w : Bytes} (h : Ws w) : (1 : Byte) ∉ w := fun hc => absurd (h 1 hc) (by decide)

theorem lit_no_ctl {t : Bytes} {i : Int} (h : IntLit t i) : (1 : Byte) ∉ t := by
  intro hc
  cases h with
  | pos h => exact absurd ((dec_iff.1 h).2.1 1 hc) (by decide)
  | neg h =>
    rcases List.mem_cons.1 hc with hc | hc
    · cases hc
    · exact absurd ((dec_iff.1 h).2.1 1 hc) (by decide)

theorem hex_no_ctl {c : Byte} {n : Nat} (h : Hex c n) : c ≠ 1 := by
  intro e
  cases h with
  | dec d h => have := congrArg UInt8.toNat e; simp [UInt8.toNat_ofNat'] at this; omega
  | upper d h => have := congrArg UInt8.toNat e; simp [UInt8.toNat_ofNat'] at this; omega
  | lower d h => have := congrArg UInt8.toNat e; simp [UInt8.toNat_ofNat'] at this; omega

theorem hex4_no_ctl {t : Bytes} {n : Nat} (h : Hex4 t n) : (1 : Byte) ∉ t := by
  cases h with
  | mk ha hb hc hd =>
    simp only [List.mem_cons, List.not_mem_nil, or_false]
    rintro (h | h | h | h)
    · exact hex_no_ctl ha h.symm
    · exact hex_no_ctl hb h.symm
    · exact hex_no_ctl hc h.symm
    · exact hex_no_ctl hd h.symm

theorem body_no_ctl (pr : Nat → Nat → Bytes) {t o : Bytes} (h : Body pr t o) : (1 : Byte) ∉ t := by
  induction h with
  | nil => simp
  | basic hi _ ih =>
    rw [List.mem_append]
    rintro (hc | hc)
    · cases hi with
      | raw c h1 h2 h3 => rw [List.mem_singleton] at hc; subst hc; exact absurd h1 (by decide)
      | short h => cases h <;> revert hc <;> decide
      | uni hv hs =>
        rcases List.mem_cons.1 hc with hc | hc
        · cases hc
        rcases List.mem_cons.1 hc with hc | hc
        · cases hc
        · exact hex4_no_ctl hv hc
    · exact ih hc
  | pair hp _ ih =>
    rw [List.mem_append]
    rintro (hc | hc)
    · cases hp with
      | mk ha hb _ _ => simp [hex4_no_ctl ha, hex4_no_ctl hb] at hc
    · exact ih hc

mutual
/-- A text of the grammar has no control characters except white space. -/
theorem jtext_no_ctl (pr : Nat → Nat → Bytes) : ∀ (v : JTree) (t : Bytes), JText pr v t → (1 : Byte) ∉ t
  | .scalar x, t, h => by
    cases x with
    | null => rw [show t = _ from h]; decide
    | bool b => rw [show t = _ from h]; cases b <;> decide
    | int s i =>
      intro hc
      exact lit_no_ctl h.2.1 hc
    | frac s x =>
      obtain ⟨-, ⟨a, i, f, e, ha, -, hf, he, -, rfl⟩, -⟩ := h
      intro hc
      rcases List.mem_append.1 hc with hc | hc
      · exact lit_no_ctl ha hc
      rcases List.mem_append.1 hc with hc | hc
      · rcases hf with rfl | ⟨ds, ⟨n, hd⟩, rfl⟩
        · simp at hc
        · rcases List.mem_cons.1 hc with hc | hc
          · cases hc
          · exact absurd ((dec_iff.1 hd).2.1 1 hc) (by decide)
      · rcases he with rfl | ⟨x, sg, ds, hx, hsg, ⟨n, hd⟩, rfl⟩
        · simp at hc
        · rcases List.mem_cons.1 hc with hc | hc
          · rcases hx with rfl | rfl <;> cases hc
          rcases List.mem_append.1 hc with hc | hc
          · rcases hsg with rfl | rfl | rfl <;> simp at hc
          · exact absurd ((dec_iff.1 hd).2.1 1 hc) (by decide)
    | str s =>
      obtain ⟨hb, rfl⟩ := h
      have := body_no_ctl pr hb
      simp [this]
  | .arr [], t, ⟨w, hw, e⟩ => by subst e; simpa using ws_no_ctl hw
  | .arr (v :: vs), t, ⟨ps, h, e⟩ => by subst e; simpa using elems_no_ctl pr (v :: vs) ps h
  | .obj [], t, ⟨w, hw, e⟩ => by subst e; simpa using ws_no_ctl hw
  | .obj ((k, v) :: ms), t, ⟨ps, h, e⟩ => by subst e; simpa using members_no_ctl pr ((k, v) :: ms) ps h
theorem elems_no_ctl (pr : Nat → Nat → Bytes) : ∀ (vs : List JTree) (ps : List Bytes), JText.elems pr vs ps → (1 : Byte) ∉ commas ps
  | [], ps, h => by rw [show ps = [] from h]; simp [commas]
  | v :: vs, ps, ⟨w1, tv, w2, ps', h1, h2, h3, h4, e⟩ => by
    have a := jtext_no_ctl pr v tv h3
    have b := elems_no_ctl pr vs ps' h4
    subst e
    cases ps' with
    | nil => simp [commas, a, ws_no_ctl h1, ws_no_ctl h2]
    | cons q qs => simp [commas, a, ws_no_ctl h1, ws_no_ctl h2, b]
theorem members_no_ctl (pr : Nat → Nat → Bytes) : ∀ (vs : List (JStr × JTree)) (ps : List Bytes), JText.members pr vs ps → (1 : Byte) ∉ commas ps
  | [], ps, h => by rw [show ps = [] from h]; simp [commas]
  | (k, v) :: vs, ps, ⟨w1, w2, w3, tv, w4, ps', h1, h2, h3, h4, hk, ht, hm, e⟩ => by
    have a := jtext_no_ctl pr v tv ht
    have b := members_no_ctl pr vs ps' hm
    have c := body_no_ctl pr hk
    subst e
    cases ps' with
    | nil => simp [commas, a, c, ws_no_ctl h1, ws_no_ctl h2, ws_no_ctl h3, ws_no_ctl h4]
    | cons q qs => simp [commas, a, c, ws_no_ctl h1, ws_no_ctl h2, ws_no_ctl h3, ws_no_ctl h4, b]
end

end Thors
