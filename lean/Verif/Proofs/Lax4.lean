import Verif.Proofs.Lax3
import Verif.Model.Importer
/-
Texts and trees; the import of an arbitrary text.
-/
namespace Thors
open Spec StrIn

/-! ### lexical rules -/

mutual
/-- Laxer rules allow more texts. -/
theorem value_mono {g h : Lexis} (hs : ∀ c, g.space c → h.space c) (hv : ∀ t, g.scalar t → h.scalar t) (hk : ∀ t, g.key t → h.key t) :
    ∀ {t : Bytes}, g.Value t → h.Value t
  | _, .scalar e => .scalar (hv _ e)
  | _, .arr0 e => .arr0 fun c hc => hs c (e c hc)
  | _, .arr e e' => .arr (elems_mono hs hv hk e) fun c hc => hs c (e' c hc)
  | _, .obj0 e => .obj0 fun c hc => hs c (e c hc)
  | _, .obj e e' => .obj (members_mono hs hv hk e) fun c hc => hs c (e' c hc)
theorem elems_mono {g h : Lexis} (hs : ∀ c, g.space c → h.space c) (hv : ∀ t, g.scalar t → h.scalar t) (hk : ∀ t, g.key t → h.key t) :
    ∀ {t : Bytes}, g.Elems t → h.Elems t
  | _, .one e1 e2 => .one (fun c hc => hs c (e1 c hc)) (value_mono hs hv hk e2)
  | _, .more e e1 e2 e3 => .more (elems_mono hs hv hk e) (fun c hc => hs c (e1 c hc)) (fun c hc => hs c (e2 c hc)) (value_mono hs hv hk e3)
theorem members_mono {g h : Lexis} (hs : ∀ c, g.space c → h.space c) (hv : ∀ t, g.scalar t → h.scalar t) (hk : ∀ t, g.key t → h.key t) :
    ∀ {t : Bytes}, g.Members t → h.Members t
  | _, .one e1 e2 e3 e4 e5 => .one (fun c hc => hs c (e1 c hc)) (hk _ e2) (fun c hc => hs c (e3 c hc)) (fun c hc => hs c (e4 c hc)) (value_mono hs hv hk e5)
  | _, .more e e1 e2 e3 e4 e5 e6 => .more (members_mono hs hv hk e) (fun c hc => hs c (e1 c hc)) (fun c hc => hs c (e2 c hc)) (hk _ e3) (fun c hc => hs c (e4 c hc))
      (fun c hc => hs c (e5 c hc)) (value_mono hs hv hk e6)
end

/-- The same rules, with less white space. -/
def Spec.Lexis.within (g : Lexis) (R : Byte → Prop) : Lexis := { g with space := fun c => g.space c ∧ R c }

theorem space_within {g : Lexis} {R : Byte → Prop} {w : Bytes} (h : g.Space w) (hr : ∀ c ∈ w, R c) : (g.within R).Space w := fun c hc => ⟨h c hc, hr c hc⟩

mutual
theorem value_within {g : Lexis} {R : Byte → Prop} : ∀ {t : Bytes}, g.Value t → (∀ c ∈ t, R c) → (g.within R).Value t
  | _, .scalar e, _ => .scalar e
  | _, .arr0 e, h => .arr0 (space_within e fun c hc => h c (by simp [hc]))
  | _, .arr e e', h => .arr (elems_within e fun c hc => h c (by simp [hc])) (space_within e' fun c hc => h c (by simp [hc]))
  | _, .obj0 e, h => .obj0 (space_within e fun c hc => h c (by simp [hc]))
  | _, .obj e e', h => .obj (members_within e fun c hc => h c (by simp [hc])) (space_within e' fun c hc => h c (by simp [hc]))
theorem elems_within {g : Lexis} {R : Byte → Prop} : ∀ {t : Bytes}, g.Elems t → (∀ c ∈ t, R c) → (g.within R).Elems t
  | _, .one e1 e2, h => .one (space_within e1 fun c hc => h c (by simp [hc])) (value_within e2 fun c hc => h c (by simp [hc]))
  | _, .more e e1 e2 e3, h => .more (elems_within e fun c hc => h c (by simp [hc])) (space_within e1 fun c hc => h c (by simp [hc]))
      (space_within e2 fun c hc => h c (by simp [hc])) (value_within e3 fun c hc => h c (by simp [hc]))
theorem members_within {g : Lexis} {R : Byte → Prop} : ∀ {t : Bytes}, g.Members t → (∀ c ∈ t, R c) → (g.within R).Members t
  | _, .one e1 e2 e3 e4 e5, h => .one (space_within e1 fun c hc => h c (by simp [hc])) e2 (space_within e3 fun c hc => h c (by simp [hc]))
      (space_within e4 fun c hc => h c (by simp [hc])) (value_within e5 fun c hc => h c (by simp [hc]))
  | _, .more e e1 e2 e3 e4 e5 e6, h => .more (members_within e fun c hc => h c (by simp [hc])) (space_within e1 fun c hc => h c (by simp [hc]))
      (space_within e2 fun c hc => h c (by simp [hc])) e3 (space_within e4 fun c hc => h c (by simp [hc])) (space_within e5 fun c hc => h c (by simp [hc]))
      (value_within e6 fun c hc => h c (by simp [hc]))
end

theorem commas_snoc : ∀ (ps : List Bytes) (q : Bytes), ps ≠ [] → commas (ps ++ [q]) = commas ps ++ [0x2C] ++ q
  | [], _, h => absurd rfl h
  | [p], q, _ => by simp [commas]
  | p :: r :: ps, q, _ => by
    have := commas_snoc (r :: ps) q (by simp)
    simp only [List.cons_append, commas] at this ⊢
    rw [this]
    simp

theorem elems_snoc {pr : Nat → Nat → Bytes} {v : JTree} {w1 tv w2 : Bytes} (h1 : Ws w1) (h2 : Ws w2) (h3 : JText pr v tv) :
    ∀ (vs : List JTree) (ps : List Bytes), JText.elems pr vs ps → JText.elems pr (vs ++ [v]) (ps ++ [w1 ++ tv ++ w2])
  | [], _, h => by
    simp only [JText.elems] at h
    subst h
    exact ⟨w1, tv, w2, [], h1, h2, h3, rfl, rfl⟩
  | u :: vs, _, h => by
    obtain ⟨a, b, c, ps', e1, e2, e3, e4, rfl⟩ := h
    exact ⟨a, b, c, _, e1, e2, e3, elems_snoc h1 h2 h3 vs ps' e4, rfl⟩

theorem members_snoc {pr : Nat → Nat → Bytes} {k : JStr} {v : JTree} {w1 w2 w3 tv w4 : Bytes} (h1 : Ws w1) (h2 : Ws w2) (h3 : Ws w3) (h4 : Ws w4) (hk : Body pr k.raw k.dec)
    (hv : JText pr v tv) : ∀ (ms : List (JStr × JTree)) (ps : List Bytes), JText.members pr ms ps →
      JText.members pr (ms ++ [(k, v)]) (ps ++ [w1 ++ [0x22] ++ k.raw ++ [0x22] ++ w2 ++ [0x3A] ++ w3 ++ tv ++ w4])
  | [], _, h => by
    simp only [JText.members] at h
    subst h
    exact ⟨w1, w2, w3, tv, w4, [], h1, h2, h3, h4, hk, hv, rfl, rfl⟩
  | (k', u) :: ms, _, h => by
    obtain ⟨a, b, c, d, e, ps', e1, e2, e3, e4, e5, e6, e7, rfl⟩ := h
    exact ⟨a, b, c, d, e, _, e1, e2, e3, e4, e5, e6, members_snoc h1 h2 h3 h4 hk hv ms ps' e7, rfl⟩

theorem elems_ne {pr : Nat → Nat → Bytes} {v : JTree} {vs : List JTree} {ps : List Bytes} (h : JText.elems pr (v :: vs) ps) : ps ≠ [] := by
  obtain ⟨_, _, _, _, _, _, _, _, rfl⟩ := h
  simp

theorem members_ne {pr : Nat → Nat → Bytes} {m : JStr × JTree} {ms : List (JStr × JTree)} {ps : List Bytes} (h : JText.members pr (m :: ms) ps) : ps ≠ [] := by
  obtain ⟨k, v⟩ := m
  obtain ⟨_, _, _, _, _, _, _, _, _, _, _, _, _, rfl⟩ := h
  simp

section
variable {g : Lexis} {pr : Nat → Nat → Bytes} {P : JScalar → Prop} (hs : ∀ c, g.space c → rfc.space c) (hv : ∀ t, g.scalar t → ∃ x, ScalarText pr x t ∧ P x)
  (hk : ∀ t, g.key t → ∃ s : JStr, Body pr s.raw s.dec ∧ t = [0x22] ++ s.raw ++ [0x22])
include hs hv hk

mutual
/-- A text of a grammar no laxer than that of the RFC is the text of a tree. -/
theorem tree_of_value : ∀ {t : Bytes}, g.Value t → ∃ v : JTree, JText pr v t ∧ ∀ x, v = .scalar x → P x
  | _, .scalar e => by
    obtain ⟨x, h1, h2⟩ := hv _ e
    exact ⟨.scalar x, h1, fun y e => by cases e; exact h2⟩
  | _, .arr0 (w := w) e => ⟨.arr [], ⟨w, fun c hc => hs c (e c hc), rfl⟩, fun x e => by cases e⟩
  | _, .arr (w := w) e e' => by
    obtain ⟨v, vs, ps, h1, h2⟩ := tree_of_elems e w fun c hc => hs c (e' c hc)
    refine ⟨.arr (v :: vs), ⟨ps, h1, ?_⟩, fun x e => by cases e⟩
    rw [← h2]; simp
  | _, .obj0 (w := w) e => ⟨.obj [], ⟨w, fun c hc => hs c (e c hc), rfl⟩, fun x e => by cases e⟩
  | _, .obj (w := w) e e' => by
    obtain ⟨v, vs, ps, h1, h2⟩ := tree_of_members e w fun c hc => hs c (e' c hc)
    refine ⟨.obj (v :: vs), ⟨ps, h1, ?_⟩, fun x e => by cases e⟩
    rw [← h2]; simp
theorem tree_of_elems : ∀ {t : Bytes}, g.Elems t → ∀ w, Ws w → ∃ (v : JTree) (vs : List JTree) (ps : List Bytes), JText.elems pr (v :: vs) ps ∧ t ++ w = commas ps
  | _, .one (w := w0) (v := tv) e1 e2, w, hw => by
    obtain ⟨v, h1, -⟩ := tree_of_value e2
    exact ⟨v, [], [w0 ++ tv ++ w], ⟨w0, tv, w, [], fun c hc => hs c (e1 c hc), hw, h1, rfl, rfl⟩, rfl⟩
  | _, .more (t := t) (w1 := w1) (w2 := w2) (v := tv) e e1 e2 e3, w, hw => by
    obtain ⟨v, vs, ps, h1, h2⟩ := tree_of_elems e w1 fun c hc => hs c (e1 c hc)
    obtain ⟨u, h3, -⟩ := tree_of_value e3
    refine ⟨v, vs ++ [u], ps ++ [w2 ++ tv ++ w], elems_snoc (fun c hc => hs c (e2 c hc)) hw h3 (v :: vs) ps h1, ?_⟩
    rw [commas_snoc _ _ (elems_ne h1), ← h2]
    simp
theorem tree_of_members : ∀ {t : Bytes}, g.Members t → ∀ w, Ws w →
    ∃ (v : JStr × JTree) (vs : List (JStr × JTree)) (ps : List Bytes), JText.members pr (v :: vs) ps ∧ t ++ w = commas ps
  | _, .one (w := w0) (w1 := w1) (w2 := w2) (v := tv) e1 e2 e3 e4 e5, w, hw => by
    obtain ⟨v, h1, -⟩ := tree_of_value e5
    obtain ⟨s, h2, rfl⟩ := hk _ e2
    refine ⟨(s, v), [], [w0 ++ [0x22] ++ s.raw ++ [0x22] ++ w1 ++ [0x3A] ++ w2 ++ tv ++ w], ⟨w0, w1, w2, tv, w, [], fun c hc => hs c (e1 c hc), fun c hc => hs c (e3 c hc),
      fun c hc => hs c (e4 c hc), hw, h2, h1, rfl, rfl⟩, ?_⟩
    simp [commas]
  | _, .more (t := t) (w := w0) (w' := w0') (w1 := w1) (w2 := w2) (v := tv) e e1 e2 e3 e4 e5 e6, w, hw => by
    obtain ⟨m, ms, ps, h1, h2⟩ := tree_of_members e w0 fun c hc => hs c (e1 c hc)
    obtain ⟨u, h3, -⟩ := tree_of_value e6
    obtain ⟨s, h4, rfl⟩ := hk _ e3
    refine ⟨m, ms ++ [(s, u)], ps ++ [w0' ++ [0x22] ++ s.raw ++ [0x22] ++ w1 ++ [0x3A] ++ w2 ++ tv ++ w],
      members_snoc (fun c hc => hs c (e2 c hc)) (fun c hc => hs c (e4 c hc)) (fun c hc => hs c (e5 c hc)) hw h4 h3 (m :: ms) ps h1, ?_⟩
    rw [commas_snoc _ _ (members_ne h1), ← h2]
    simp
end
end

theorem commas_flat : ∀ (p : Bytes) (ps : List Bytes), commas (p :: ps) = p ++ ps.flatMap fun q => 0x2C :: q
  | p, [] => by simp [commas]
  | p, q :: ps => by
    rw [commas, commas_flat q ps]
    simp

theorem elems_append {g : Lexis} : ∀ (ps : List Bytes) (t0 w0 : Bytes), g.Elems t0 → g.Space w0 → (∀ p ∈ ps, ∃ w1 tv w2, g.Space w1 ∧ g.Value tv ∧ g.Space w2 ∧ p = w1 ++ tv ++ w2) →
    ∃ t w, g.Elems t ∧ g.Space w ∧ t0 ++ w0 ++ (ps.flatMap fun q => 0x2C :: q) = t ++ w
  | [], t0, w0, h1, h2, _ => ⟨t0, w0, h1, h2, by simp⟩
  | p :: ps, t0, w0, h1, h2, h => by
    obtain ⟨w1, tv, w2, a, b, c, rfl⟩ := h p (by simp)
    obtain ⟨t, w, h3, h4, h5⟩ := elems_append ps _ w2 (.more h1 h2 a b) c fun q hq => h q (by simp [hq])
    exact ⟨t, w, h3, h4, by rw [← h5]; simp⟩

theorem members_append {g : Lexis} : ∀ (ps : List Bytes) (t0 w0 : Bytes), g.Members t0 → g.Space w0 →
    (∀ p ∈ ps, ∃ w1 k w2 w3 tv w4, g.Space w1 ∧ g.key k ∧ g.Space w2 ∧ g.Space w3 ∧ g.Value tv ∧ g.Space w4 ∧ p = w1 ++ k ++ (w2 ++ [0x3A] ++ w3) ++ tv ++ w4) →
    ∃ t w, g.Members t ∧ g.Space w ∧ t0 ++ w0 ++ (ps.flatMap fun q => 0x2C :: q) = t ++ w
  | [], t0, w0, h1, h2, _ => ⟨t0, w0, h1, h2, by simp⟩
  | p :: ps, t0, w0, h1, h2, h => by
    obtain ⟨w1, k, w2, w3, tv, w4, a, b, c, d, e, f, rfl⟩ := h p (by simp)
    obtain ⟨t, w, h3, h4, h5⟩ := members_append ps _ w4 (.more h1 h2 a b c d e) f fun q hq => h q (by simp [hq])
    exact ⟨t, w, h3, h4, by rw [← h5]; simp⟩

mutual
/-- The text of a tree is a text of the grammar. -/
theorem value_of_tree : ∀ (v : JTree) (t : Bytes), JText rfcPair v t → rfc.Value t
  | .scalar x, t, h => .scalar ⟨x, h⟩
  | .arr [], t, h => by
    obtain ⟨w, hw, rfl⟩ := h
    exact .arr0 hw
  | .arr (v :: vs), t, h => by
    obtain ⟨ps, h1, rfl⟩ := h
    have h2 := value_of_elems (v :: vs) ps h1
    cases ps with
    | nil => exact absurd rfl (elems_ne h1)
    | cons p ps =>
      obtain ⟨w1, tv, w2, a, b, c, rfl⟩ := h2 p (by simp)
      obtain ⟨t, w, h3, h4, h5⟩ := elems_append ps _ w2 (.one a b) c fun q hq => h2 q (by simp [hq])
      rw [commas_flat, h5, ← List.append_assoc]
      exact .arr h3 h4
  | .obj [], t, h => by
    obtain ⟨w, hw, rfl⟩ := h
    exact .obj0 hw
  | .obj (m :: ms), t, h => by
    obtain ⟨ps, h1, rfl⟩ := h
    have h2 := value_of_members (m :: ms) ps h1
    cases ps with
    | nil => exact absurd rfl (members_ne h1)
    | cons p ps =>
      obtain ⟨w1, k, w2, w3, tv, w4, a, b, c, d, e, f, rfl⟩ := h2 p (by simp)
      obtain ⟨t, w, h3, h4, h5⟩ := members_append ps _ w4 (.one a b c d e) f fun q hq => h2 q (by simp [hq])
      rw [commas_flat, h5, ← List.append_assoc]
      exact .obj h3 h4
theorem value_of_elems : ∀ (vs : List JTree) (ps : List Bytes), JText.elems rfcPair vs ps →
    ∀ p ∈ ps, ∃ w1 tv w2, rfc.Space w1 ∧ rfc.Value tv ∧ rfc.Space w2 ∧ p = w1 ++ tv ++ w2
  | [], ps, h, p, hp => by simp only [JText.elems] at h; subst h; cases hp
  | v :: vs, ps, h, p, hp => by
    obtain ⟨w1, tv, w2, ps', h1, h2, h3, h4, rfl⟩ := h
    rcases List.mem_cons.1 hp with rfl | hp
    · exact ⟨w1, tv, w2, h1, value_of_tree v tv h3, h2, rfl⟩
    · exact value_of_elems vs ps' h4 p hp
theorem value_of_members : ∀ (ms : List (JStr × JTree)) (ps : List Bytes), JText.members rfcPair ms ps →
    ∀ p ∈ ps, ∃ w1 k w2 w3 tv w4, rfc.Space w1 ∧ rfc.key k ∧ rfc.Space w2 ∧ rfc.Space w3 ∧ rfc.Value tv ∧ rfc.Space w4 ∧ p = w1 ++ k ++ (w2 ++ [0x3A] ++ w3) ++ tv ++ w4
  | [], ps, h, p, hp => by simp only [JText.members] at h; subst h; cases hp
  | (k, v) :: ms, ps, h, p, hp => by
    obtain ⟨w1, w2, w3, tv, w4, ps', h1, h2, h3, h4, hk, hv, h5, rfl⟩ := h
    rcases List.mem_cons.1 hp with rfl | hp
    · exact ⟨w1, _, w2, w3, tv, w4, h1, ⟨k.raw, k.dec, hk, rfl⟩, h2, h3, value_of_tree v tv hv, h4, by simp⟩
    · exact value_of_members ms ps' h5 p hp
end

/-! ### the import -/

/-- What the import of any text has read, if it succeeds. -/
theorem extract_lax (env : Env) (cfg : Cfg) (pol : Policy) (conv : Bool) (ty : Ty) (old : Val) (t : Bytes) (r : Option Val)
    (h : (jsonExtract env cfg pol conv ty old t).fate = .returned true r) :
    ∃ u rest, t = u ++ rest ∧ (lax (Occurs env ty) (cfg.strict = .Weak) conv).Doc u ∧ (pol.validateNoTrailingData = true → LSpace rest) := by
  have hS : Closed env (Occurs env ty) := ⟨fun _ _ => .seq, fun _ _ => .arr, fun _ => .smap, fun _ => .mmap, fun _ => .umap, fun _ => .opt, fun _ => .uptr,
    fun _ _ _ => .pptr, fun i ts j t h1 h2 h3 => .tuple h1 h2 (List.mem_of_getElem? h3), fun _ _ _ => .alt, fun _ _ _ _ => .member⟩
  have handled : ∀ e : Exc, (pol.handle e : Report Val).fate ≠ .returned true r := by
    intro e he
    cases e <;> (unfold Policy.handle at he; dsimp only at he) <;> (try split at he) <;> cases he
  unfold jsonExtract extract at h
  rw [show (PI.init (JsonP.ofBytes t conv)).getToken JsonP.inOps.ops = .ok (.DocStart, PI.init ⟨(JsonP.ofBytes t conv).lex, ⟨.Done, .Init, [], true⟩⟩) from rfl] at h
  simp only [Res.ok_bind, ne_eq, not_true_eq_false, if_false, show JsonP.inOps.ops = JsonP.ops from rfl] at h
  have key := deser_track (jsonTrack t (Occurs env ty) (cfg.strict = .Weak) conv) env cfg (fun h => h) hS ty old
    (PI.init ⟨(JsonP.ofBytes t conv).lex, ⟨.Done, .Init, [], true⟩⟩) (⟨.Done, .Init, [], true⟩, [])
    ⟨.self, rfl, .inr (.inl ⟨rfl, ⟨rfl, .inl ⟨rfl, rfl⟩⟩, .inl rfl, rfl, rfl, fun _ => rfl, t, rfl, rfl⟩)⟩
  generalize deser JsonP.ops env cfg ty old (PI.init ⟨(JsonP.ofBytes t conv).lex, ⟨.Done, .Init, [], true⟩⟩) = d at h key
  cases d with
  | ub => cases h
  | throw e => exact absurd h (handled e)
  | ok x =>
    obtain ⟨v, p⟩ := x
    have key := key _ rfl
    obtain ⟨s, pb1, pb2⟩ := p
    obtain ⟨h1, h2, h3⟩ := key
    dsimp only at h1 h2 h3 h
    subst h1 h2
    -- the state after the check for trailing data
    have htr : ∃ s2, (trailing JsonP.inOps pol ⟨s, .Error, .Error⟩).2 = ⟨s2, .Error, .Error⟩ ∧ s2.ctl = s.ctl ∧ s2.lex.inp.data = s.lex.inp.data ∧
        (s.lex.inp.data.length ≤ s.lex.inp.pos → s.lex.inp.data.length ≤ s2.lex.inp.pos) ∧ (s.lex.inp.good = false → s2.lex.inp.good = false) ∧
        ((trailing JsonP.inOps pol ⟨s, .Error, .Error⟩).1 = false → pol.validateNoTrailingData = true → s.lex.inp.good = true → (s.lex.inp.readChar).2.good = false) := by
      have hl := (later_readChar s.lex.inp).1
      unfold trailing
      split
      · next hh =>
        have hgood : s.lex.inp.good = true := hh.2
        dsimp only
        split
        · next h4 =>
          refine ⟨_, rfl, rfl, hl.data, fun e => ?_, fun e => absurd (hgood.symm.trans e) (by simp), fun _ _ _ => h4⟩
          show _ ≤ (s.lex.inp.readChar).2.pos
          rcases hl.pos with q | q <;> omega
        · next h4 =>
          refine ⟨_, rfl, rfl, hl.data, fun e => ?_, fun e => absurd (hgood.symm.trans e) (by simp), fun e => absurd e (by simp)⟩
          show _ ≤ (s.lex.inp.readChar).2.pos
          rcases hl.pos with q | q <;> omega
      · next hh =>
        exact ⟨s, rfl, rfl, rfl, id, id, fun _ e1 e2 => absurd ⟨e1, e2⟩ hh⟩
    obtain ⟨s2, e1, hc2, hd2, hp2, hg2, hj⟩ := htr
    generalize trailing JsonP.inOps pol ⟨s, .Error, .Error⟩ = tr at h e1 hj
    obtain ⟨junk, p2⟩ := tr
    dsimp only at h e1 hj
    subst e1
    have hgt : (⟨s2, .Error, .Error⟩ : PI JsonP).getToken JsonP.ops = (do let (k, s) ← s2.getNextToken; return (k, ⟨s, .Error, .Error⟩)) := rfl
    rw [hgt] at h
    rcases h3 with h3 | ⟨-, hc, hcv, h3⟩
    · exfalso
      have h3' : JLost s2 := by
        unfold JLost at h3 ⊢
        rw [hc2, hd2]
        exact ⟨h3.1, h3.2.imp_right fun ⟨a, b⟩ => ⟨hp2 a, b⟩⟩
      have hy := h3'.next
      generalize s2.getNextToken = n at h hy
      cases n with
      | ub => cases h
      | throw e =>
        change (if junk = true then _ else _ : Report Val).fate = _ at h
        split at h
        · cases h
        · exact handled e h
      | ok y =>
        obtain ⟨k, s3⟩ := y
        obtain ⟨-, hk⟩ := hy _ rfl
        dsimp only at hk
        subst hk
        simp only [Res.ok_bind, Res.pure_eq] at h
        rw [if_pos (by simp)] at h
        split at h
        · cases h
        · exact handled _ h
    · dsimp only at hc
      have hn : s2.getNextToken = .ok (.DocEnd, { s2 with ctl := { s2.ctl with currentState := .Error } }) := by
        unfold JsonP.getNextToken
        rw [hc2, hc]
        rfl
      rw [hn] at h
      simp only [Res.ok_bind, Res.pure_eq, not_true_eq_false, if_false] at h
      split at h
      · exact absurd h (handled _)
      · next hjunk =>
        simp only [Fate.returned.injEq] at h
        have hgood : s2.lex.inp.good = true := h.1
        rcases h3 with ⟨l, v', post, hl, hv, hh⟩ | ⟨-, hbad⟩
        · refine ⟨l ++ v', post, by simpa using hh.2, ⟨l, v', hl, hv, rfl⟩, fun hval => ?_⟩
          have hr := hj (by simpa using hjunk) hval hh.good
          rw [readChar_lax hh] at hr
          simp at hr
          obtain ⟨a1, a2, a3, -⟩ := spaces_split post
          have : t.length = l.length + v'.length + post.length := by
            have := congrArg List.length hh.2
            simpa [Nat.add_assoc] using this
          have hle : post.length ≤ spaces post := by omega
          rwa [List.take_of_length_le hle] at a2
        · exact absurd (hg2 hbad) (by simp [hgood])

end Thors
