import Verif.Props.RoundTrip
/-
C36, what does not hold: classes that name their type field otherwise than the base class, and second base classes.
-/
namespace Thors.Props
open Thors Spec StrIn

/-- C36 is false for classes whose type field name (`ThorsAnvil_TypeFieldName`) is not that of the base class, unless a marker is
configured: the export uses the name of the class of the object, the import that of the class of the pointer. No object comes back. -/
theorem C36_false (env : Env) (pcfg : PrintCfg) (cfg : Cfg) (b c : Nat) (cd : ClassDef) (ps fs : List Val) (d : Doc)
    (hm : cfg.marker = pcfg.marker) (hne : polyMarker env pcfg.marker c ≠ polyMarker env pcfg.marker b) (hc : env.defs c = .cls cd)
    (hd : docOf env pcfg.marker (.pptr b) (.dyn c (.obj ps fs)) = .ok d)
    (hk : AllKeys cleanKey d) (ha : AllScalars sixAtom d) (hf : FitsIndent pcfg (nesting d)) :
    ∃ text, jsonExport env pcfg (.pptr b) (.dyn c (.obj ps fs)) = .ok text ∧ ∀ old, jsonImport env cfg true (.pptr b) old text = .throw .std := by
  obtain ⟨w, tv, ws, ss, hws, ht, -, -, e⟩ := export_doc env pcfg _ _ d hd hf
  obtain ⟨⟨dps, ms, f⟩, name, field⟩ := cd
  simp only [docOf, hc] at hd
  obtain ⟨own, -, hd⟩ := Res.bind_eq_ok.1 hd
  obtain ⟨up, -, hd⟩ := Res.bind_eq_ok.1 hd
  cases hd
  refine ⟨_, e, fun old => ?_⟩
  have hi : imp (jsem true) env cfg (jtree streamText (.obj ((polyMarker env pcfg.marker c, .scalar (.str name)) :: (own ++ up)))) (.pptr b) old = .throw .std := by
    simp only [jtree, jtree.members, imp, imp.members, impObj, className, hm]
    rw [if_pos (by simpa [jsem, JStr.val] using hne)]
    rfl
  have := jsonImport_post env cfg (conv := true) hws
    (ptext_jtext codePair _ tv hk (AllScalars.imp (fun _ h => finite_ok (six_ok h)) _ ha) ht) (post := []) (by trivial) (.pptr b) old (.inr (by rw [hi]; simp))
  rw [List.append_nil] at this
  rw [this, hi]

/-- C36 is false for base classes other than the first one: the object is exported, but the import converts the pointer with
`reinterpret_cast`, which is undefined for a base that does not lie at the beginning of the object. -/
theorem C36_second_base_false (env : Env) (pcfg : PrintCfg) (cfg : Cfg) (b c : Nat) (cd : ClassDef) (ps fs : List Val) (d : Doc)
    (hm : cfg.marker = pcfg.marker) (heq : polyMarker env pcfg.marker c = polyMarker env pcfg.marker b) (hc : env.defs c = .cls cd)
    (hr : env.registry.lookup cd.serName = some c) (hoff : env.derives c b = false) (hw : cfg.strict ≠ .Weak)
    (hd : docOf env pcfg.marker (.pptr b) (.dyn c (.obj ps fs)) = .ok d)
    (hk : AllKeys cleanKey d) (ha : AllScalars sixAtom d) (hf : FitsIndent pcfg (nesting d)) :
    ∃ text, jsonExport env pcfg (.pptr b) (.dyn c (.obj ps fs)) = .ok text ∧ ∀ old, jsonImport env cfg true (.pptr b) old text = .ub := by
  obtain ⟨w, tv, ws, ss, hws, ht, -, -, e⟩ := export_doc env pcfg _ _ d hd hf
  obtain ⟨⟨dps, ms, f⟩, name, field⟩ := cd
  simp only [docOf, hc] at hd
  obtain ⟨own, -, hd⟩ := Res.bind_eq_ok.1 hd
  obtain ⟨up, -, hd⟩ := Res.bind_eq_ok.1 hd
  cases hd
  refine ⟨_, e, fun old => ?_⟩
  have hi : imp (jsem true) env cfg (jtree streamText (.obj ((polyMarker env pcfg.marker c, .scalar (.str name)) :: (own ++ up)))) (.pptr b) old = .ub := by
    simp only [jtree, jtree.members, imp, imp.members, impObj, className, hm]
    rw [if_neg (by simpa [jsem, JStr.val] using heq)]
    have hs : (jsem true).readStr (jscalar streamText (.str name)) = .ok name := by simp [jsem, jscalar, JStr.val]
    simp only at hr
    simp only [hs, Res.ok_bind, Res.pure_eq, hr, hoff, if_true]
  have := jsonImport_post env cfg (conv := true) hws
    (ptext_jtext codePair _ tv hk (AllScalars.imp (fun _ h => finite_ok (six_ok h)) _ ha) ht) (post := []) (by trivial) (.pptr b) old (.inl fun h => absurd h hw)
  rw [List.append_nil] at this
  rw [this, hi]

/-- Sample program: `struct Pet { std::string name; }`, `struct Dog : Pet { ThorsAnvil_TypeFieldName(breed) }`, and `struct Robot : Machine, Pet`, where
`Pet` is not at the beginning. -/
def petEnv : Env := ⟨fun
    | 0 => .cls ⟨.mk [] [⟨b!"name", b!"name", .str⟩] none, b!"Pet", none⟩
    | 1 => .cls ⟨.mk [.mk [] [⟨b!"name", b!"name", .str⟩] none] [] none, b!"Dog", some b!"breed"⟩
    | 2 => .cls ⟨.mk [.mk [] [] none, .mk [] [⟨b!"name", b!"name", .str⟩] none] [] none, b!"Robot", none⟩
    | _ => .enum [],
  fun | 0 => .obj [] [.str []] | 1 => .obj [.obj [] [.str []]] [] | 2 => .obj [.obj [] [], .obj [] [.str []]] [] | _ => .enum 0,
  [(b!"Pet", 0), (b!"Dog", 1), (b!"Robot", 2)], fun c b => decide (c = b) || decide (b = 0 ∧ c = 1), fun _ _ _ => false⟩

/-- non-vacuity: a dog and a robot behind a pointer to `Pet`. -/
example : (∃ text, jsonExport petEnv {} (.pptr 0) (.dyn 1 (.obj [.obj [] [.str b!"Rex"]] [])) = .ok text ∧
      ∀ old, jsonImport petEnv ⟨.Strict, []⟩ true (.pptr 0) old text = .throw .std) ∧
    ∃ text, jsonExport petEnv {} (.pptr 0) (.dyn 2 (.obj [.obj [] [], .obj [] [.str b!"K9"]] [])) = .ok text ∧
      ∀ old, jsonImport petEnv ⟨.Strict, []⟩ true (.pptr 0) old text = .ub := by
  constructor
  · refine C36_false petEnv {} ⟨.Strict, []⟩ 0 1 _ _ _ (.obj [(b!"breed", .scalar (.str b!"Dog")), (b!"name", .scalar (.str b!"Rex"))]) rfl (by decide) rfl
      (by simp [docOf, docOwn, docParents, petEnv, shown, polyMarker]) ?_ ?_ ?_
    · simp [AllKeys, AllKeys.members]; decide
    · simp [AllScalars, AllScalars.members, sixAtom]
    · exact fits_default [] false _ (by simp [nesting, nesting.members])
  · refine C36_second_base_false petEnv {} ⟨.Strict, []⟩ 0 2 _ _ _ (.obj [(b!"__type", .scalar (.str b!"Robot")), (b!"name", .scalar (.str b!"K9"))]) rfl (by decide) rfl
      rfl (by decide) (by decide) (by simp [docOf, docOwn, docParents, petEnv, shown, polyMarker]) ?_ ?_ ?_
    · simp [AllKeys, AllKeys.members]; decide
    · simp [AllScalars, AllScalars.members, sixAtom]
    · exact fits_default [] false _ (by simp [nesting, nesting.members])

end Thors.Props
