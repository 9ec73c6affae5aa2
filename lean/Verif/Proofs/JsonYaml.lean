import Verif.Proofs.Yaml
import Verif.Proofs.ImpMono
/-
A JSON document and the YAML document with the same content.
-/
namespace Thors
open Spec StrIn

/-- Every string value of the document satisfies `P` (keys do not count). -/
def StrVals (P : JStr → Prop) : JTree → Prop
  | .scalar (.str s) => P s
  | .scalar _ => True
  | .arr vs => elems vs
  | .obj ms => members ms
where
  elems : List JTree → Prop
  | [] => True
  | v :: vs => StrVals P v ∧ elems vs
  members : List (JStr × JTree) → Prop
  | [] => True
  | (_, v) :: ms => StrVals P v ∧ members ms

/-- Not the text of null in YAML. -/
def notNullText (t : Bytes) : Prop := t ≠ b!"null" ∧ t ≠ b!"~"

def JYScalar (conv : Bool) : JScalar → Bytes → Prop
  | .null, y => y = b!"null"
  | .bool b, y => y = if b then b!"true" else b!"false"
  | .int t i, y => y = t ∧ IntLit t i ∧ ¬ litLeadingZero t
  | .frac t x, y => y = t ∧ JsonNumber t x
  | .str s, y => y = s.val conv ∧ notNullText y

theorem json_readsLike_yaml (conv : Bool) : ReadsLike usual (fun _ => True) (jsem conv) ysem (fun k l => l = k.val conv) (JYScalar conv) where
  key k l h := by rw [h]; rfl
  keySkips _ _ _ _ := rfl
  null x y h := by
    cases x with
    | null => simp only [JYScalar] at h; subst h; simp [jsem, ysem]
    | bool b => simp only [JYScalar] at h; subst h; cases b <;> simp [jsem, ysem] <;> decide
    | int t i =>
      obtain ⟨rfl, h, -⟩ := h
      obtain ⟨c, cs, rfl, hc⟩ := intLit_head h
      have := head_not_null (cs := cs) hc
      simp only [jsem, ysem, this]
      simp
    | frac t x =>
      obtain ⟨rfl, h⟩ := h
      have := number_not_null h
      simp only [jsem, ysem, this]
      simp
    | str s =>
      obtain ⟨-, h1, h2⟩ := h
      simp [jsem, ysem, h1, h2]
  int x y k i hk h e := by
    cases x with
    | int t j =>
      obtain ⟨rfl, h, -⟩ := h
      simp only [jsem] at e
      split at e
      · cases e
      · split at e
        · rename_i hf
          cases e
          exact scanText_lit hk.1 hk.2 h (fits_iff.2 hf)
        · cases e
    | _ => simp [jsem, throwStd] at e
  flt x y f v _ h e := by
    cases x with
    | int t i =>
      obtain ⟨rfl, h, hz⟩ := h
      simp only [jsem, JScalar.number] at e
      split at e
      · rename_i v' hv
        cases e
        exact (scanTextFlt_number f (int_number h hz)).trans (congrArg Res.ok (toFltInf_of hv))
      · cases e
    | frac t x =>
      obtain ⟨rfl, h⟩ := h
      simp only [jsem, JScalar.number] at e
      split at e
      · rename_i v' hv
        cases e
        exact (scanTextFlt_number f h).trans (congrArg Res.ok (toFltInf_of hv))
      · cases e
    | _ => simp [jsem, JScalar.number, throwStd] at e
  bool x y b h e := by
    cases x with
    | bool c =>
      simp only [JYScalar] at h
      simp only [jsem, Res.ok.injEq] at e
      subst h e
      cases c <;> simp [ysem]
    | _ => simp [jsem, throwStd] at e
  str x y s h e := by
    cases x with
    | str t =>
      obtain ⟨rfl, -⟩ := h
      simp only [jsem, Res.ok.injEq] at e
      subst e
      rfl
    | _ => simp [jsem, throwStd] at e
  skips _ _ _ _ := rfl

mutual
theorem json_shape {pr : Nat → Nat → Bytes} (conv : Bool) : ∀ (v : JTree) (t : Bytes), JText pr v t → StrVals (fun s => notNullText (s.val conv)) v →
    SameShape (fun (k : JStr) (l : Bytes) => l = k.val conv) (JYScalar conv) v (asYaml conv v)
  | .scalar .null, t, h, hs => rfl
  | .scalar (.bool b), t, h, hs => rfl
  | .scalar (.int x i), t, h, hs => by obtain ⟨rfl, h, hz⟩ := h; exact ⟨rfl, h, hz⟩
  | .scalar (.frac x y), t, h, hs => by
    obtain ⟨rfl, -, h⟩ := h
    exact ⟨rfl, h⟩
  | .scalar (.str s), t, h, hs => ⟨rfl, hs⟩
  | .arr [], t, h, hs => trivial
  | .arr (v :: vs), t, h, hs => by obtain ⟨ps, h, -⟩ := h; exact json_shape_elems conv (v :: vs) ps h hs
  | .obj [], t, h, hs => trivial
  | .obj (m :: ms), t, h, hs => by obtain ⟨ps, h, -⟩ := h; exact json_shape_members conv (m :: ms) ps h hs
theorem json_shape_elems {pr : Nat → Nat → Bytes} (conv : Bool) : ∀ (vs : List JTree) (ps : List Bytes), JText.elems pr vs ps → StrVals.elems (fun s => notNullText (s.val conv)) vs →
    SameShape.elems (fun (k : JStr) (l : Bytes) => l = k.val conv) (JYScalar conv) vs (asYaml.elems conv vs)
  | [], ps, h, hs => trivial
  | v :: vs, ps, h, hs => by
    obtain ⟨w1, tv, w2, ps', -, -, h1, h2, -⟩ := h
    exact ⟨json_shape conv v tv h1 hs.1, json_shape_elems conv vs ps' h2 hs.2⟩
theorem json_shape_members {pr : Nat → Nat → Bytes} (conv : Bool) : ∀ (ms : List (JStr × JTree)) (ps : List Bytes), JText.members pr ms ps → StrVals.members (fun s => notNullText (s.val conv)) ms →
    SameShape.members (fun (k : JStr) (l : Bytes) => l = k.val conv) (JYScalar conv) ms (asYaml.members conv ms)
  | [], ps, h, hs => trivial
  | (k, v) :: ms, ps, h, hs => by
    obtain ⟨w1, w2, w3, tv, w4, ps', -, -, -, -, -, h1, h2, -⟩ := h
    exact ⟨rfl, json_shape conv v tv h1 hs.1, json_shape_members conv ms ps' h2 hs.2⟩
end

mutual
theorem asYaml_toks (conv : Bool) : ∀ v : JTree, treeToks (asYaml conv v) = treeToks v
  | .scalar x => by cases x <;> rfl
  | .arr vs => by simp [asYaml, treeToks, asYaml_toks_elems conv vs]
  | .obj ms => by simp [asYaml, treeToks, asYaml_toks_members conv ms]
theorem asYaml_toks_elems (conv : Bool) : ∀ vs : List JTree, treeToks.elems (asYaml.elems conv vs) = treeToks.elems vs
  | [] => rfl
  | v :: vs => by simp [asYaml.elems, treeToks.elems, asYaml_toks conv v, asYaml_toks_elems conv vs]
theorem asYaml_toks_members (conv : Bool) : ∀ ms : List (JStr × JTree), treeToks.members (asYaml.members conv ms) = treeToks.members ms
  | [] => rfl
  | (k, v) :: ms => by simp [asYaml.members, treeToks.members, asYaml_toks conv v, asYaml_toks_members conv ms]
end

end Thors
