import Verif.Proofs.Spelling
import Verif.Proofs.JsonImport
import Verif.Props.Samples
import Verif.Props.Stream
/-
C140: how a JSON document is spelled does not matter.
-/
namespace Thors.Props
open Thors Thors.Spec StrIn

private theorem word_symm {x y : JScalar} (h : SameWord x y) : SameWord y x := by
  cases x <;> cases y <;> first | exact h.elim | skip
  · trivial
  · exact Eq.symm h
  · exact ⟨h.1.symm, h.2.symm⟩
  · exact ⟨h.1.symm, h.2.symm⟩
  · exact Eq.symm h

mutual
private theorem words_symm : ∀ v u : JTree, SameWords v u → SameWords u v
  | .scalar _, .scalar _, h => word_symm h
  | .arr ts, .arr us, h => words_symm_elems ts us h
  | .obj ms, .obj ns, h => words_symm_members ms ns h
  | .scalar _, .arr _, h => h.elim
  | .scalar _, .obj _, h => h.elim
  | .arr _, .scalar _, h => h.elim
  | .arr _, .obj _, h => h.elim
  | .obj _, .scalar _, h => h.elim
  | .obj _, .arr _, h => h.elim
private theorem words_symm_elems : ∀ v u : List JTree, SameWords.elems v u → SameWords.elems u v
  | [], [], _ => trivial
  | t :: ts, u :: us, h => ⟨words_symm t u h.1, words_symm_elems ts us h.2⟩
  | [], _ :: _, h => h.elim
  | _ :: _, [], h => h.elim
private theorem words_symm_members : ∀ v u : List (JStr × JTree), SameWords.members v u → SameWords.members u v
  | [], [], _ => trivial
  | (_, t) :: ts, (_, u) :: us, h => ⟨h.1.symm, words_symm t u h.2.1, words_symm_members ts us h.2.2⟩
  | [], _ :: _, h => h.elim
  | _ :: _, [], h => h.elim
end

/-- C140. Two texts of documents that say the same, in whatever spelling of strings, keys and numbers and with whatever white space: one is imported exactly if the other is, and
the result is the same. -/
theorem C140_spelling (env : Env) (cfg : Cfg) (ty : Ty) (old x : Val) (v u : JTree) (t t' : Bytes) (hv : JDoc codePair v t) (hu : JDoc codePair u t') (h : SameWords v u)
    (hs : cfg.strict = .Weak → v.skippable (jsem true) = true ∧ u.skippable (jsem true) = true) :
    jsonImport env cfg true ty old t = .ok x ↔ jsonImport env cfg true ty old t' = .ok x := by
  rw [jsonImport_doc env cfg hv ty old (.inl fun w => (hs w).1), jsonImport_doc env cfg hu ty old (.inl fun w => (hs w).2)]
  exact ⟨words_imp env cfg h (fun w => (hs w).2) ty old x, words_imp env cfg (words_symm v u h) (fun w => (hs w).1) ty old x⟩

/-- C140 for white space alone, where errors are the same, too, and strings may be left as they are in the text. -/
theorem C140_white_space (env : Env) (cfg : Cfg) (conv : Bool) (ty : Ty) (old : Val) (v : JTree) (t t' : Bytes) (ht : JDoc codePair v t) (ht' : JDoc codePair v t')
    (hs : cfg.strict = .Weak → v.skippable (jsem conv) = true) : jsonImport env cfg conv ty old t = jsonImport env cfg conv ty old t' := by
  rw [jsonImport_doc env cfg ht ty old (.inl hs), jsonImport_doc env cfg ht' ty old (.inl hs)]

/-- C140 on streams: each of the texts is in a stream of its own, perhaps with something after it. -/
theorem C140_spelling_stream (env : Env) (cfg : Cfg) (ty : Ty) (old x : Val) (v u : JTree) (w tv post w' tu post' : Bytes) (hw : Ws w) (hw' : Ws w')
    (hv : JText codePair v tv) (hu : JText codePair u tu) (hp : Ends v post) (hp' : Ends u post') (h : SameWords v u) (i j : IStr) (hi : Ready i (w ++ tv ++ post))
    (hj : Ready j (w' ++ tu ++ post')) (hs : cfg.strict = .Weak → v.skippable (jssem true) = true ∧ u.skippable (jssem true) = true) :
    (∃ i', jsonStreamImport env cfg true ty old i = .ok (x, i')) ↔ ∃ j', jsonStreamImport env cfg true ty old j = .ok (x, j') := by
  constructor
  · rintro ⟨i', e⟩
    have e := words_impS env cfg h (fun w => (hs w).2) ty old x (imp_of_streamImport env cfg hw hv hp hi.oks ty old x (fun w => (hs w).1) e)
    obtain ⟨j', e, -⟩ := jsonStreamImport_doc env cfg hw' hu hp' hj.oks ty old x e
    exact ⟨j', e⟩
  · rintro ⟨j', e⟩
    have e := words_impS env cfg (words_symm v u h) (fun w => (hs w).1) ty old x (imp_of_streamImport env cfg hw' hu hp' hj.oks ty old x (fun w => (hs w).2) e)
    obtain ⟨i', e, -⟩ := jsonStreamImport_doc env cfg hw hv hp hi.oks ty old x e
    exact ⟨i', e⟩

/-- non-vacuity: a string with an escape and a number with an exponent. -/
example : SameWords (.arr [.scalar (.str ⟨b!"A", b!"A"⟩), .scalar (.frac b!"1.50" ⟨false, 150, -2⟩)])
    (.arr [.scalar (.str ⟨[0x5C] ++ b!"u0041", b!"A"⟩), .scalar (.frac b!"15e-1" ⟨false, 15, -1⟩)]) := ⟨rfl, ⟨rfl, by decide⟩, trivial⟩

/-- `{"A":1}` and `{ "A" : 1 }` with the key written as an escape. -/
private def plain140 : JTree := .obj [(⟨b!"A", b!"A"⟩, Samples.num 1)]
private def odd140 : JTree := .obj [(⟨[0x5C, 0x75, 0x30, 0x30, 0x34, 0x31], b!"A"⟩, Samples.num 1)]
private def oddText140 : Bytes := [0x7B, 0x20, 0x22, 0x5C, 0x75, 0x30, 0x30, 0x34, 0x31, 0x22, 0x20, 0x3A, 0x20, 0x31, 0x20, 0x7D]
private theorem ws140 : Ws [0x20] := fun c h => by simp at h; exact .inl h
private theorem ws140' : Ws [] := fun c h => by cases h
private theorem plain_text140 : JDoc codePair plain140 (Samples.text plain140) := Samples.plain_doc _ (by decide)
private theorem odd_text140 : JDoc codePair odd140 oddText140 := by
  have hn : JText codePair (Samples.num 1) [0x31] := by
    obtain ⟨w1, tv, w2, h1, h2, h, e⟩ := (Samples.plain_doc (Samples.num 1) (by decide))
    have : tv = [0x31] := h.1
    exact this ▸ h
  have hb : Body codePair [0x5C, 0x75, 0x30, 0x30, 0x34, 0x31] b!"A" :=
    Body.basic (t := [0x5C, 0x75, 0x30, 0x30, 0x34, 0x31]) (o := b!"A") (BasicItem.uni (h := [0x30, 0x30, 0x34, 0x31]) (v := 0x41) (Hex4.mk (w := 0) (x := 0) (y := 4) (z := 1) (Hex.dec 0 (by decide)) (Hex.dec 0 (by decide)) (Hex.dec 4 (by decide)) (Hex.dec 1 (by decide))) (by decide)) .nil
  exact ⟨[], oddText140, [], ws140', ws140', ⟨_, ⟨[0x20], [0x20], [0x20], [0x31], [0x20], [], ws140, ws140, ws140, ws140, hb, hn, rfl, rfl⟩, rfl⟩, rfl⟩
example : jsonImport Samples.env ⟨.Strict, []⟩ true (.smap Samples.int32) (.dict []) oddText140 = .ok (.dict [(b!"A", .int 1)]) := by
  rw [← C140_spelling Samples.env ⟨.Strict, []⟩ (.smap Samples.int32) (.dict []) _ plain140 odd140 _ _ plain_text140 odd_text140 ⟨rfl, ⟨rfl, Iff.rfl⟩, trivial⟩ (fun h => by cases h),
    jsonImport_doc _ _ plain_text140 _ _ (.inl fun h => by cases h)]
  rfl

example : ∃ j', jsonStreamImport Samples.env ⟨.Strict, []⟩ true (.smap Samples.int32) (.dict []) (IStr.ofBytes oddText140) = .ok (.dict [(b!"A", .int 1)], j') := by
  obtain ⟨w1, tv, w2, h1, -, hv, e⟩ := plain_text140
  obtain ⟨w3, tu, w4, h3, -, hu, e'⟩ := odd_text140
  have hi : Ready (IStr.ofBytes (Samples.text plain140)) (w1 ++ tv ++ w2) := ⟨⟨rfl, rfl⟩, rfl, Nat.zero_le _, e⟩
  have hj : Ready (IStr.ofBytes oddText140) (w3 ++ tu ++ w4) := ⟨⟨rfl, rfl⟩, rfl, Nat.zero_le _, e'⟩
  obtain ⟨i', e1, -⟩ := jsonStreamImport_doc Samples.env ⟨.Strict, []⟩ (conv := true) h1 hv (post := w2) trivial hi.oks (.smap Samples.int32) (.dict []) (.dict [(b!"A", .int 1)]) rfl
  exact (C140_spelling_stream Samples.env ⟨.Strict, []⟩ (.smap Samples.int32) (.dict []) _ plain140 odd140 w1 tv w2 w3 tu w4 h1 h3 hv hu trivial trivial ⟨rfl, ⟨rfl, Iff.rfl⟩, trivial⟩
    _ _ hi hj (fun h => by cases h)).mp ⟨i', e1⟩

end Thors.Props
