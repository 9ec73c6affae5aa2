import Verif.Model.RawBuffer
import Verif.Proofs.Custom
/-
The static buffer of the BSON parser.
-/
namespace Thors
open Spec StrIn

section
variable {σ τ K X : Type} (o : POps σ) (sem : ScalarSem K X) (raw : σ → τ → Res (Bytes × σ × τ))
  (hraw : ∀ s c b s', o.getRaw s = .ok (b, s') → ∃ c', raw s c = .ok (b, s', c'))
include hraw

theorem reads_beside {α : Type} {Q : σ → Prop} {r : Res (α × σ)} {e : Res α} (h : Reads Q r e) (c : τ) :
    Reads (fun s : σ × τ => Q s.1) (do let (a, s') ← r; return (a, s', c)) e := by
  cases e with
  | ok a => obtain ⟨s, rfl, h2⟩ := h; exact ⟨(s, c), rfl, h2⟩
  | throw e => rw [show r = .throw e from h]; rfl
  | ub => rw [show r = .ub from h]; rfl

theorem after_beside : ∀ (t : Tr K X) {Q : σ → Prop} {s : σ} (c : τ), After o sem t Q s → After (o.beside raw) sem t (fun s => Q s.1) (s, c)
  | .scalar x, Q, s, c, h => by
    obtain ⟨h1, h2, h3, h4, h5, h6, h7⟩ := h
    refine ⟨h1, fun k => reads_beside o raw hraw (h2 k) c, reads_beside o raw hraw h3 c, reads_beside o raw hraw h4 c, fun hh => ?_, fun b hb => ?_,
      fun f => reads_beside o raw hraw (h7 f) c⟩
    · obtain ⟨s2, e, hq⟩ := h5 hh
      exact ⟨(s2, c), by simp only [POps.beside, e]; rfl, hq⟩
    · obtain ⟨s2, e, hq⟩ := h6 b hb
      obtain ⟨c', e'⟩ := hraw s c b s2 e
      exact ⟨(s2, c'), by simp only [POps.beside, e']; rfl, hq⟩
  | .arr ts, Q, s, c, h => ⟨h.1, ebeside ts c h.2⟩
  | .obj ms, Q, s, c, h => ⟨h.1, mbeside ms c h.2⟩
where
  ebeside : ∀ (ts : List (Tr K X)) {Q : σ → Prop} {s : σ} (c : τ), After.elems o sem ts Q s → After.elems (o.beside raw) sem ts (fun s => Q s.1) (s, c)
  | [], Q, s, c, ⟨s1, h1, h2⟩ => ⟨(s1, c), by simp only [POps.beside, h1]; rfl, h2⟩
  | t :: ts, Q, s, c, ⟨s1, h1, h2⟩ => ⟨(s1, c), by simp only [POps.beside, h1]; rfl,
      after_mono _ _ t (fun s hs => ebeside ts s.2 hs) (after_beside t c h2)⟩
  mbeside : ∀ (ms : List (K × Tr K X)) {Q : σ → Prop} {s : σ} (c : τ), After.members o sem ms Q s → After.members (o.beside raw) sem ms (fun s => Q s.1) (s, c)
  | [], Q, s, c, ⟨s1, h1, h2⟩ => ⟨(s1, c), by simp only [POps.beside, h1]; rfl, h2⟩
  | (k, t) :: ms, Q, s, c, ⟨s1, h1, ⟨s2, h2, s3, h3, h4⟩, h5⟩ => by
    refine ⟨(s1, c), by simp only [POps.beside, h1]; rfl, ⟨(s2, c), by simp only [POps.beside, h2]; rfl, (s3, c), by simp only [POps.beside, h3]; rfl,
      after_mono _ _ t (fun s hs => mbeside ms s.2 hs) (after_beside t c h4)⟩, fun hk => ?_⟩
    obtain ⟨s2, h2, s3, h3, h4⟩ := h5 hk
    exact ⟨(s2, c), by simp only [POps.beside, h2]; rfl, (s3, c), by simp only [POps.beside, h3]; rfl,
      after_mono _ _ t (fun s hs => mbeside ms s.2 hs) (after_beside t c h4)⟩

end

theorem getRawInto_eq (s : BsonP) (c b : Bytes) (s' : BsonP) (h : s.getRaw = .ok (b, s')) : ∃ c', s.getRawInto c = .ok (b, s', c') := by
  unfold BsonP.getRawInto
  split
  · rename_i ht
    have h : s.readBinary = .ok (b, s') := by
      unfold BsonP.getRaw at h
      rw [ht] at h
      exact h
    have : s.readBinaryInto c = .ok (b, s') := by
      unfold BsonP.readBinary at h
      unfold BsonP.readBinaryInto
      obtain ⟨⟨n, inp⟩, e1, h⟩ := Res.bind_ok h
      obtain ⟨s1, e2, h⟩ := Res.bind_ok h
      obtain ⟨⟨x, good, inp1⟩, e3, h⟩ := Res.bind_ok h
      simp only [e1, e2, e3, Res.ok_bind] at h ⊢
      split at h
      · cases h
      rename_i hg
      rw [if_neg hg]
      obtain ⟨s2, e4, h⟩ := Res.bind_ok h
      simp only [e4, Res.ok_bind] at h ⊢
      split at h
      · cases h
      rename_i hn
      rw [if_neg hn]
      obtain ⟨⟨got, good, inp2⟩, e5, h⟩ := Res.bind_ok h
      simp only [e5, Res.ok_bind] at h ⊢
      split at h
      · cases h
      rename_i hg
      rw [if_neg hg]
      obtain ⟨s3, e6, h⟩ := Res.bind_ok h
      simp only [e6, Res.ok_bind] at h ⊢
      split at h
      · cases h
      rename_i hl
      cases h
      rw [List.drop_eq_nil_of_le (by simp only [resized, List.length_append, List.length_take, List.length_replicate]; omega), List.append_nil]
      rfl
    exact ⟨b, by rw [this]; rfl⟩
  · exact ⟨_, by rw [h]; rfl⟩

theorem presents_shared {t : BTree} {Q : BsonP → Prop} {s : BsonP} (h : Presents BsonP.ops bsem t Q s) (c : Bytes) :
    Presents BsonP.opsShared bsem t (fun s => Q s.1) (s, c) := by
  obtain ⟨s1, e, h⟩ := h
  refine ⟨(s1, c), ?_, after_beside BsonP.ops bsem BsonP.getRawInto getRawInto_eq t c h⟩
  show (do let (a, s') ← BsonP.ops.next s; return (a, s', c)) = _
  rw [e]
  rfl

theorem bsonCustomImportIn_doc {V : Type} (S : Streamed V) {v : BTree} (h : Storable32 v) {x y : CVal V} (hy : CVal.read S bsem.raw x v = some y) (rest buf : Bytes) :
    ∃ buf', bsonCustomImportIn S buf x (bdoc v ++ rest) = .ok (y, buf') := by
  have hk : BsonP.rootKind v = customRoot x := by
    cases x <;> cases v <;> first | rfl | cases hy
  obtain ⟨s1, h1, h2⟩ := BsonP.bdoc_presents BsonP.skipper_ignore v h rest
  have h1 : BsonP.opsShared.next (BsonP.ofBytes (BsonP.rootKind v) (bdoc v ++ rest), buf) = .ok (.DocStart, (s1, buf)) := by
    show (do let (a, s') ← BsonP.ops.next _; return (a, s', buf)) = _
    rw [show BsonP.ops.next _ = _ from h1]
    rfl
  have h3 := presents_shared h2 buf
  obtain ⟨s2, e2, h4⟩ := h3
  obtain ⟨s', e, -⟩ := customImport_at S BsonP.opsShared bsem (R := fun _ => True) h1 ⟨s2, e2, after_mono _ _ v (by
    rintro ⟨s, c⟩ ⟨s', e, -⟩
    refine ⟨(s', c), ?_, trivial⟩
    show (do let (a, s') ← BsonP.ops.next s; return (a, s', c)) = _
    rw [show BsonP.ops.next s = _ from e]
    rfl) h4⟩ hy
  rw [hk] at e
  exact ⟨s'.2, by rw [bsonCustomImportIn, e]; rfl⟩

/-- After any imports. -/
theorem bsonCustomImports_append {V : Type} (S : Streamed V) (left : Bytes → Bytes → Bytes) : ∀ (as bs : List (CVal V × Bytes)) (buf : Bytes),
    bsonCustomImports S left (as ++ bs) buf =
      ((bsonCustomImports S left as buf).1 ++ (bsonCustomImports S left bs (bsonCustomImports S left as buf).2).1,
        (bsonCustomImports S left bs (bsonCustomImports S left as buf).2).2)
  | [], bs, buf => rfl
  | (x, t) :: as, bs, buf => by
    simp only [List.cons_append, bsonCustomImports]
    rw [bsonCustomImports_append S left as bs]

end Thors

namespace Thors
open Spec StrIn

/-- Threads between two objects. -/
def Between (bs : List (List Bytes)) (p : RawProgram) : Prop :=
  ∀ (i : Nat) (t : RawThread), p.threads[i]? = some t → ∃ done left : List Bytes, bs[i]? = some (done ++ left) ∧ t.texts = done ∧ t.todo = left.flatMap fun b => [.fill b, .copy]

theorem between_pair {bs : List (List Bytes)} {p : RawProgram} (h : Between bs p) (j : Nat) : Between bs ((p.step j).step j) := by
  cases hj : p.threads[j]? with
  | none =>
    have : p.step j = p := by rw [RawProgram.step, hj]
    rw [this, this]
    exact h
  | some t =>
    obtain ⟨done, left, h1, h2, h3⟩ := h j t hj
    obtain ⟨todo, texts⟩ := t
    simp only at h2 h3
    subst h2 h3
    have hlt : j < p.threads.length := by
      rcases Nat.lt_or_ge j p.threads.length with h | h
      · exact h
      · rw [List.getElem?_eq_none h] at hj; cases hj
    cases left with
    | nil =>
      have : p.step j = p := by rw [RawProgram.step, hj]; rfl
      rw [this, this]
      exact h
    | cons b left =>
      have e : p.step j = ⟨b, p.threads.set j ⟨.copy :: left.flatMap fun b => [.fill b, .copy], texts⟩⟩ := by
        rw [RawProgram.step, hj]; rfl
      have e2 : (p.step j).step j = ⟨b, p.threads.set j ⟨left.flatMap fun b => [.fill b, .copy], texts ++ [b]⟩⟩ := by
        rw [e, RawProgram.step]
        simp only [List.getElem?_set_self hlt]
        simp [RawAct.perform]
      rw [e2]
      intro i t ht
      by_cases hi : i = j
      · subst hi
        rw [List.getElem?_set_self hlt] at ht
        cases ht
        exact ⟨texts ++ [b], left, by rw [h1]; simp, rfl, rfl⟩
      · rw [List.getElem?_set_ne (Ne.symm hi)] at ht
        exact h i t ht

theorem between_run {bs : List (List Bytes)} : ∀ (js : List Nat) {p : RawProgram}, Between bs p → Between bs (p.run (js.flatMap fun j => [j, j]))
  | [], _, h => h
  | j :: js, p, h => between_run js (between_pair h j)

end Thors

namespace Thors
open Spec StrIn Lean.Order

/-! ### Any input -/

/-- Reading a value leaves these alone. -/
def SameStep (s s' : BsonP) : Prop := s'.next = s.next ∧ s'.skip = s.skip

namespace SameStep
variable {s : BsonP}

theorem use {n : Int} : Yields (SameStep s) (s.use n) := by
  intro x e
  obtain ⟨l, ls, -, rfl⟩ := BsonP.use_ok e
  exact ⟨rfl, rfl⟩

theorem readInt {n : Nat} : Yields (fun x => SameStep s x.2) (s.readInt n) := by
  unfold BsonP.readInt
  intro x e
  obtain ⟨_, h1, e⟩ := Res.bind_ok e
  obtain ⟨_, h2, e⟩ := Res.bind_ok e
  obtain ⟨_, _, -, rfl⟩ := BsonP.use_ok h1
  cases e
  exact ⟨rfl, rfl⟩

theorem readBool : Yields (fun x => SameStep s x.2) s.readBool := by
  unfold BsonP.readBool
  intro x e
  obtain ⟨⟨got, good, inp⟩, -, e⟩ := Res.bind_ok e
  dsimp only at e
  split at e
  · cases e
  obtain ⟨_, h1, e⟩ := Res.bind_ok e
  obtain ⟨_, _, -, rfl⟩ := BsonP.use_ok h1
  split at e
  · cases e; exact ⟨rfl, rfl⟩
  · cases e; exact ⟨rfl, rfl⟩
  · cases e

theorem readDouble : Yields (fun x => SameStep s x.2) s.readDouble := by
  unfold BsonP.readDouble
  intro x e
  obtain ⟨⟨got, good, inp⟩, -, e⟩ := Res.bind_ok e
  dsimp only at e
  split at e
  · cases e
  obtain ⟨_, h1, e⟩ := Res.bind_ok e
  obtain ⟨_, _, -, rfl⟩ := BsonP.use_ok h1
  split at e
  · cases e
  · cases e; exact ⟨rfl, rfl⟩

theorem readString {dst : Bytes} : Yields (fun x => SameStep s x.2) (s.readString dst) := by
  unfold BsonP.readString
  intro x e
  obtain ⟨⟨n, inp⟩, -, e⟩ := Res.bind_ok e
  obtain ⟨_, h1, e⟩ := Res.bind_ok e
  obtain ⟨_, _, -, rfl⟩ := BsonP.use_ok h1
  dsimp only at e
  split at e
  · split at e <;> cases e
  obtain ⟨⟨got, good, inp⟩, -, e⟩ := Res.bind_ok e
  dsimp only at e
  split at e
  · cases e
  obtain ⟨_, h1, e⟩ := Res.bind_ok e
  obtain ⟨_, _, -, rfl⟩ := BsonP.use_ok h1
  split at e
  · cases e
  · cases e; exact ⟨rfl, rfl⟩

theorem readBinaryInto {c : Bytes} : Yields (fun x => SameStep s x.2) (s.readBinaryInto c) := by
  unfold BsonP.readBinaryInto
  intro x e
  obtain ⟨⟨n, inp⟩, -, e⟩ := Res.bind_ok e
  obtain ⟨_, h1, e⟩ := Res.bind_ok e
  obtain ⟨_, _, -, rfl⟩ := BsonP.use_ok h1
  obtain ⟨⟨got, good, inp⟩, -, e⟩ := Res.bind_ok e
  dsimp only at e
  split at e
  · cases e
  obtain ⟨_, h1, e⟩ := Res.bind_ok e
  obtain ⟨_, _, -, rfl⟩ := BsonP.use_ok h1
  split at e
  · cases e
  obtain ⟨⟨got, good, inp⟩, -, e⟩ := Res.bind_ok e
  dsimp only at e
  split at e
  · cases e
  obtain ⟨_, h1, e⟩ := Res.bind_ok e
  obtain ⟨_, _, -, rfl⟩ := BsonP.use_ok h1
  cases e
  exact ⟨rfl, rfl⟩

theorem getRawInto {c : Bytes} : Yields (fun x => SameStep s x.2.1) (s.getRawInto c) := by
  unfold BsonP.getRawInto
  split
  · exact readBinaryInto.bind fun x hx => .ok hx
  rename_i h5
  refine Yields.bind (P := fun x => SameStep s x.2) ?_ fun x hx => .ok hx
  unfold BsonP.getRaw
  split
  · exact readInt.bind fun x hx => .ok hx
  split
  · exact readInt.bind fun x hx => .ok hx
  split
  · exact readBool.bind fun x hx => .ok hx
  split
  · exact .ok ⟨rfl, rfl⟩
  split
  · exact readString.bind fun x hx => .ok hx
  split
  · exact readDouble.bind fun x hx => .ok hx
  exact .throwStd

end SameStep

/-- Not between a value and what comes after it. -/
def BFine (s : BsonP) : Prop := s.skip = true → s.next = .Value

theorem BFine.handOut {s : BsonP} (hk : s.skip = false) : Yields (fun x => BFine x.2 ∧ (x.1 = .Value → x.2.skip = true) ∧ x.1 ≠ .Error) s.handOut := by
  have fine : ∀ s' : BsonP, s'.skip = false → BFine s' := fun s' h e => by rw [h] at e; cases e
  have op : ∀ x : BsonP, x.skip = false → Yields (fun y => y.skip = false) x.openLevel := by
    intro x hx y e
    unfold BsonP.openLevel at e
    obtain ⟨_, _, e⟩ := Res.bind_ok e
    cases e
    exact hx
  have en : ∀ x : BsonP, x.skip = false → Yields (fun y => y.skip = false) x.readEnd := by
    intro x hx y e
    unfold BsonP.readEnd at e
    obtain ⟨⟨_, _, _⟩, _, e⟩ := Res.bind_ok e
    dsimp only at e
    split at e
    · cases e
    obtain ⟨_, h1, e⟩ := Res.bind_ok e
    obtain ⟨_, _, -, rfl⟩ := BsonP.use_ok h1
    split at e
    · cases e
    · cases e; exact hx
  unfold BsonP.handOut
  split
  · split
    · exact .ub
    · exact .ok ⟨fine _ hk, by simp, by simp⟩
    · exact .ok ⟨fine _ hk, by simp, by simp⟩
    · exact (op _ (by exact hk)).bind fun x hx => .ok ⟨fine _ hx, by simp, by simp⟩
  · dsimp only
    split
    · exact (en _ hk).bind fun x hx => .ok ⟨fine _ hx, by simp, by simp⟩
    · exact .ok ⟨fine _ hk, by simp, by simp⟩
  · rename_i hn
    refine (op _ hk).bind fun x hx => ?_
    split
    · split
      · exact .ok ⟨fine _ hx, by simp [hn], by simp [hn]⟩
      · exact .ok ⟨fine _ hx, by simp [hn], by simp [hn]⟩
    · split
      · exact .ub
      · exact .ok ⟨fine _ hx, by simp [hn], by simp [hn]⟩
    · exact .ub
  · rename_i hn
    refine (op _ hk).bind fun x hx => ?_
    split
    · split
      · exact .ok ⟨fine _ hx, by simp [hn], by simp [hn]⟩
      · exact .ok ⟨fine _ hx, by simp [hn], by simp [hn]⟩
    · split
      · exact .ub
      · exact .ok ⟨fine _ hx, by simp [hn], by simp [hn]⟩
    · exact .ub
  · rename_i hn
    refine (en _ hk).bind fun x hx => ?_
    split
    · exact .ok ⟨fine _ hx, by simp [hn], by simp [hn]⟩
    · refine Yields.bind (P := fun _ => True) (fun _ _ => trivial) fun t _ => ?_
      cases t with
      | none => exact .ok ⟨fine _ hx, by simp [hn], by simp [hn]⟩
      | some t => exact .ok ⟨fine _ hx, by simp [hn], by simp [hn]⟩
    · exact .ub
  · rename_i hn
    refine (en _ hk).bind fun x hx => ?_
    split
    · exact .ok ⟨fine _ hx, by simp [hn], by simp [hn]⟩
    · refine Yields.bind (P := fun _ => True) (fun _ _ => trivial) fun t _ => ?_
      cases t with
      | none => exact .ok ⟨fine _ hx, by simp [hn], by simp [hn]⟩
      | some t => exact .ok ⟨fine _ hx, by simp [hn], by simp [hn]⟩
    · exact .ub
  · rename_i hn
    exact .ok ⟨fun _ => hn, fun _ => rfl, by simp⟩
  · exact .throwStd

theorem BFine.next (s : BsonP) : Yields (fun x => BFine x.2 ∧ (x.1 = .Value → x.2.skip = true) ∧ x.1 ≠ .Error) s.getNextToken := by
  unfold BsonP.getNextToken
  refine Yields.bind (P := fun x : BsonP => x.skip = false) ?_ fun x hx => ?_
  · unfold BsonP.settle
    split
    · refine Yields.bind (P := fun _ => True) (fun _ _ => trivial) fun t _ => ?_
      cases t <;> exact .ok rfl
    · rename_i h
      exact .ok (by simpa using h)
  · split
    · refine Yields.bind (P := fun x : BsonP => x.skip = false) ?_ fun y hy => ?_
      · unfold BsonP.readKey
        intro y e
        obtain ⟨⟨_, _, _⟩, _, e⟩ := Res.bind_ok e
        dsimp only at e
        split at e
        · cases e
        obtain ⟨⟨_, _, _⟩, _, e⟩ := Res.bind_ok e
        dsimp only at e
        split at e
        · cases e
        obtain ⟨_, _, -, rfl⟩ := BsonP.use_ok e
        exact hx
      · split
        · exact .ub
        · have hs : (if y.type = 0x03 then { y with conts := .Map :: y.conts, next := .MapStart }
              else if y.type = 0x04 then { y with conts := .Array :: y.conts, next := .ArrayStart }
              else { y with next := .Value }).skip = false := by
            split
            · exact hy
            · split <;> exact hy
          dsimp only
          split
          · exact .ok ⟨fun e => (Bool.false_ne_true (hs.symm.trans e)).elim, by simp, by simp⟩
          · exact BFine.handOut hs
    · exact BFine.handOut hx

/-- Two buffers: unless the input is at its end, they do not matter. -/
theorem getRawInto_two {s : BsonP} (hf : BFine s) (hk : s.skip = true) (c : Bytes) :
    Yields (fun x => BFine x.2.1 ∧ (BLost x.2.1 ∨ ∀ c', ∃ c2, s.getRawInto c' = .ok (x.1, x.2.1, c2))) (s.getRawInto c) := by
  have hv := hf hk
  have lost : ∀ x : BsonP, SameStep s x → x.inp.data.length ≤ x.inp.pos → BLost x := fun x hx hp =>
    ⟨hp, fun e => absurd (hv.symm.trans (hx.1.symm.trans e)) (by decide), fun _ => hx.1.trans hv⟩
  intro x e
  have hs := SameStep.getRawInto x e
  refine ⟨fun _ => hs.1.trans hv, ?_⟩
  unfold BsonP.getRawInto at e
  split at e
  · rename_i h5
    obtain ⟨⟨b, s'⟩, eb, e⟩ := Res.bind_ok e
    cases e
    unfold BsonP.readBinaryInto at eb
    obtain ⟨⟨n, inp⟩, e1, eb⟩ := Res.bind_ok eb
    obtain ⟨s1, e2, eb⟩ := Res.bind_ok eb
    obtain ⟨⟨g1, good1, inp1⟩, e3, eb⟩ := Res.bind_ok eb
    dsimp only at e2 e3 eb
    split at eb
    · cases eb
    rename_i hg1
    obtain ⟨s2, e4, eb⟩ := Res.bind_ok eb
    split at eb
    · cases eb
    rename_i hn
    obtain ⟨⟨got, good, inp2⟩, e5, eb⟩ := Res.bind_ok eb
    dsimp only at e4 e5 eb
    split at eb
    · cases eb
    rename_i hg
    obtain ⟨s3, e6, eb⟩ := Res.bind_ok eb
    cases eb
    by_cases hl : n.toNat ≤ got.length
    · right
      intro c'
      refine ⟨got, ?_⟩
      unfold BsonP.getRawInto
      rw [if_pos h5]
      have d : ∀ c : Bytes, (resized c n.toNat).drop got.length = [] := fun c =>
        List.drop_eq_nil_of_le (by simp only [resized, List.length_append, List.length_take, List.length_replicate]; omega)
      unfold BsonP.readBinaryInto
      simp only [e1, e2, e3, e4, e5, e6, Res.ok_bind, if_neg hg1, if_neg hn, if_neg hg, d, List.append_nil]
      rfl
    · left
      apply lost _ hs
      obtain ⟨l, ls, -, rfl⟩ := BsonP.use_ok e6
      dsimp only
      unfold StrIn.read at e5
      split at e5
      · cases e5
      simp only [Res.ok.injEq, Prod.mk.injEq] at e5
      obtain ⟨rfl, -, rfl⟩ := e5
      simp only [List.length_take, List.length_drop] at hl ⊢
      omega
  · rename_i h5
    right
    intro c'
    obtain ⟨⟨b, s'⟩, eb, e⟩ := Res.bind_ok e
    cases e
    exact ⟨_, by rw [BsonP.getRawInto, if_neg h5, eb]; rfl⟩

theorem getRawInto_lost {s : BsonP} (h : BLost s) (c : Bytes) : Yields (fun x => BLost x.2.1) (s.getRawInto c) := by
  unfold BsonP.getRawInto
  split
  · refine Yields.bind (P := fun _ => False) ?_ fun _ h => h.elim
    exact Yields.bind (h.readLE (by decide) (P := fun _ => False)) fun _ h => h.elim
  · refine Yields.bind (P := fun x => BLost x.2) ?_ fun x hx => .ok hx
    unfold BsonP.getRaw
    split
    · exact Yields.bind (h.readInt (by decide) (P := fun _ => False)) fun _ h => h.elim
    split
    · exact Yields.bind (h.readInt (by decide) (P := fun _ => False)) fun _ h => h.elim
    split
    · exact Yields.bind (h.readBool (P := fun _ => False)) fun _ h => h.elim
    split
    · exact .ok h
    split
    · exact Yields.bind (h.readString (P := fun _ => False)) fun _ h => h.elim
    split
    · exact Yields.bind (h.readDouble (P := fun _ => False)) fun _ h => h.elim
    exact .throwStd

section
variable {V : Type} (S : Streamed V)

/-- A token that was pushed back, or none. -/
def held (s : BsonP) (c : Bytes) (k : Tok) : PI (BsonP × Bytes) := ⟨(s, c), k, .Error⟩

/-- What one run may say about all others: the input is at its end, or they give the same with the parser in the same state. -/
def TwoBuffers {α : Type} (r : Bytes → Res (α × PI (BsonP × Bytes))) (x : α × PI (BsonP × Bytes)) : Prop :=
  ∃ s c, x.2 = held s c .Error ∧ (BLost s ∨ BFine s ∧ ∀ c', ∃ c2, r c' = .ok (x.1, held s c2 .Error))

theorem held_token (s : BsonP) (c : Bytes) : Yields (fun x => ∃ s', x.2 = held s' c .Error ∧ BFine s' ∧ (x.1 = .Value → s'.skip = true) ∧ x.1 ≠ .Error ∧
    (BLost s → BLost s' ∧ x.1 ≠ .DocEnd) ∧ ∀ c', (held s c' .Error).getToken BsonP.opsShared = .ok (x.1, held s' c' .Error)) ((held s c .Error).getToken BsonP.opsShared) := by
  intro x e
  have form : ∀ c, (held s c .Error).getToken BsonP.opsShared = (do let (t, s') ← s.getNextToken; return (t, held s' c .Error)) := by
    intro c
    show (do let (t, q) ← (do let (a, s') ← s.getNextToken; return (a, s', c)); return (t, (⟨q, .Error, .Error⟩ : PI (BsonP × Bytes)))) = _
    cases s.getNextToken <;> rfl
  rw [form] at e
  obtain ⟨⟨t, s'⟩, e1, e⟩ := Res.bind_ok e
  cases e
  obtain ⟨h1, h2, h3⟩ := BFine.next s _ e1
  refine ⟨s', rfl, h1, h2, h3, fun hl => ?_, fun c' => ?_⟩
  · have := hl.next _ e1
    exact ⟨this.1, this.2.2⟩
  · rw [form, e1]; rfl

theorem customScan_value (v : V) {s : BsonP} (hf : BFine s) (hk : s.skip = true) (c : Bytes) {k : Tok} (p : Bytes → PI (BsonP × Bytes))
    (hp : ∀ c, (p c).getToken BsonP.opsShared = .ok (k, held s c .Error)) (hkv : k = .Value) :
    Yields (TwoBuffers fun c' => customScan S BsonP.opsShared v (p c')) (customScan S BsonP.opsShared v (p c)) := by
  subst hkv
  have form : ∀ c, customScan S BsonP.opsShared v (p c) = (do let (b, s', c2) ← s.getRawInto c; return ((S.get b v).1, held s' c2 .Error)) := by
    intro c
    rw [customScan, hp c]
    show (do let (b, q) ← (do let (a, s', t) ← s.getRawInto c; return (a, s', t)); return ((S.get b v).1, (⟨q, .Error, .Error⟩ : PI (BsonP × Bytes)))) = _
    cases s.getRawInto c <;> rfl
  intro x e
  rw [form] at e
  obtain ⟨⟨b, s', c2⟩, e1, e⟩ := Res.bind_ok e
  cases e
  obtain ⟨h1, h2⟩ := getRawInto_two hf hk c _ e1
  refine ⟨s', c2, rfl, h2.imp id fun h => ⟨h1, fun c' => ?_⟩⟩
  obtain ⟨c3, e3⟩ := h c'
  exact ⟨c3, by show customScan S BsonP.opsShared v (p c') = _; rw [form, e3]; rfl⟩

theorem customScan_lost (v : V) {s : BsonP} (hl : BLost s) (c : Bytes) {k : Tok} {p : PI (BsonP × Bytes)}
    (hp : p.getToken BsonP.opsShared = .ok (k, held s c .Error)) :
    Yields (fun x => ∃ s c, x.2 = held s c .Error ∧ BLost s) (customScan S BsonP.opsShared v p) := by
  intro x e
  rw [customScan, hp] at e
  simp only [Res.ok_bind] at e
  split at e
  · cases e
  obtain ⟨⟨b, s'⟩, e1, e⟩ := Res.bind_ok e
  cases e
  obtain ⟨⟨b', s1, c1⟩, e2, e1⟩ := Res.bind_ok (show (do let (a, s', t) ← s.getRawInto c; return (a, s', t)) = Res.ok (b, s') from e1)
  cases e1
  exact ⟨s1, c1, rfl, getRawInto_lost hl c _ e2⟩

theorem held_push (s : BsonP) (c : Bytes) {k : Tok} (hk : k ≠ .Error) : ((held s c .Error).pushBackToken k).getToken BsonP.opsShared = .ok (k, held s c .Error) := by
  have e : (held s c .Error).pushBackToken k = held s c k := rfl
  rw [e, PI.getToken, if_neg (by simp [held]), if_pos (by exact hk)]
  rfl

theorem customScans_two : ∀ (vs : List V) (p : PI (BsonP × Bytes)), (∀ s c, p = held s c .Error → (BLost s → Yields (fun x => ∃ s c, x.2 = held s c .Error ∧ BLost s) (customScans S BsonP.opsShared vs p)) ∧
    (BFine s → Yields (TwoBuffers fun c' => customScans S BsonP.opsShared vs (held s c' .Error)) (customScans S BsonP.opsShared vs p))) := by
  refine customScans.fixpoint_induct S BsonP.opsShared (fun f => ∀ (vs : List V) (p : PI (BsonP × Bytes)), (∀ s c, p = held s c .Error → (BLost s → Yields (fun x => ∃ s c, x.2 = held s c .Error ∧ BLost s) (f vs p)) ∧
    (BFine s → Yields (TwoBuffers fun c' => customScans S BsonP.opsShared vs (held s c' .Error)) (f vs p)))) ?_ ?_
  · refine admissible_pi _ fun vs => admissible_pi _ fun p => admissible_pi _ fun s => admissible_pi _ fun c => admissible_pi _ fun _ => ?_
    exact admissible_and _ _
      (admissible_pi _ fun _ => admissible_apply (fun (_ : List V) (f : PI (BsonP × Bytes) → Res (List V × PI (BsonP × Bytes))) => Yields _ (f p)) vs
        (admissible_apply (fun (_ : PI (BsonP × Bytes)) (r : Res (List V × PI (BsonP × Bytes))) => Yields _ r) p (Yields.admissible _)))
      (admissible_pi _ fun _ => admissible_apply (fun (_ : List V) (f : PI (BsonP × Bytes) → Res (List V × PI (BsonP × Bytes))) => Yields _ (f p)) vs
        (admissible_apply (fun (_ : PI (BsonP × Bytes)) (r : Res (List V × PI (BsonP × Bytes))) => Yields _ r) p (Yields.admissible _)))
  · rintro f ih vs p s c rfl
    constructor
    · intro hl
      refine (held_token s c).bind ?_
      rintro ⟨k, p⟩ ⟨s1, rfl, hf, hv, he, hlost, -⟩
      obtain ⟨hl, -⟩ := hlost hl
      dsimp only at hv he ⊢
      split
      · exact .ok ⟨s1, c, rfl, hl⟩
      refine (customScan_lost S S.fresh hl c (held_push s1 c he)).bind ?_
      rintro ⟨v, p⟩ ⟨s2, c2, rfl, hl⟩
      exact (ih (vs ++ [v]) _ s2 c2 rfl).1 hl
    · intro hf0 x e
      obtain ⟨⟨k, p⟩, e1, e⟩ := Res.bind_ok e
      obtain ⟨s1, rfl, hf, hv, he, -, hall⟩ := held_token s c _ e1
      dsimp only at hv he hall e
      split at e
      · rename_i hk
        cases e
        refine ⟨s1, c, rfl, .inr ⟨hf, fun c' => ⟨c', ?_⟩⟩⟩
        show customScans S BsonP.opsShared vs (held s c' .Error) = _
        rw [customScans, hall]
        simp only [Res.ok_bind, if_pos hk]
        rfl
      rename_i hk
      obtain ⟨⟨v, p⟩, e2, e⟩ := Res.bind_ok e
      by_cases hkv : k = .Value
      · obtain ⟨s2, c2, rfl, h2⟩ := customScan_value S S.fresh hf (hv hkv) c (fun c => (held s1 c .Error).pushBackToken k) (fun c => held_push s1 c he) hkv _ e2
        rcases h2 with hl | ⟨hf2, h2⟩
        · obtain ⟨s3, c3, h3, hl3⟩ := (ih (vs ++ [v]) _ s2 c2 rfl).1 hl _ e
          exact ⟨s3, c3, h3, .inl hl3⟩
        · obtain ⟨s3, c3, h3, h4⟩ := (ih (vs ++ [v]) _ s2 c2 rfl).2 hf2 _ e
          refine ⟨s3, c3, h3, h4.imp id fun h => ⟨h.1, fun c' => ?_⟩⟩
          obtain ⟨c4, e4⟩ := h2 c'
          obtain ⟨c5, e5⟩ := h.2 c4
          refine ⟨c5, ?_⟩
          show customScans S BsonP.opsShared vs (held s c' .Error) = _
          rw [customScans, hall]
          simp only [Res.ok_bind, if_neg hk]
          dsimp only at e4
          rw [e4]
          exact e5
      · rw [customScan, held_push s1 c he] at e2
        simp only [Res.ok_bind, if_pos (show k ≠ Tok.Value from hkv)] at e2
        cases e2

/-- What comes out of an import that succeeds does not depend on the buffer. -/
theorem bsonCustomImportIn_two (buf buf' : Bytes) (x : CVal V) (t : Bytes) {y : CVal V} {b : Bytes} (h : bsonCustomImportIn S buf x t = .ok (y, b)) :
    ∃ b', bsonCustomImportIn S buf' x t = .ok (y, b') := by
  unfold bsonCustomImportIn at h ⊢
  obtain ⟨⟨v, p⟩, e, h⟩ := Res.bind_ok h
  cases h
  unfold customImport at e ⊢
  have hi : ∀ c, PI.init (BsonP.ofBytes (customRoot x) t, c) = held (BsonP.ofBytes (customRoot x) t) c .Error := fun _ => rfl
  rw [hi] at e ⊢
  obtain ⟨⟨k, p1⟩, e1, e⟩ := Res.bind_ok e
  obtain ⟨s1, rfl, hf, hv, he, -, hall⟩ := held_token _ _ _ e1
  dsimp only at hv he hall e
  rw [hall buf']
  simp only [Res.ok_bind]
  split at e
  · cases e
  rename_i hk
  rw [if_neg hk]
  obtain ⟨⟨y', p2⟩, e2, e⟩ := Res.bind_ok e
  have two : TwoBuffers (fun c' => streamedRead S BsonP.opsShared x (held s1 c' .Error)) (y', p2) := by
    cases x with
    | one v =>
      obtain ⟨⟨v', p3⟩, e3, e4⟩ := Res.bind_ok (show (do let (v, p) ← customScan S BsonP.opsShared v (held s1 buf .Error); return (CVal.one v, p)) = _ from e2)
      cases e4
      have e3' := e3
      rw [customScan] at e3'
      obtain ⟨⟨k2, p4⟩, e5, e6⟩ := Res.bind_ok e3'
      obtain ⟨s2, rfl, hf2, hv2, he2, -, hall2⟩ := held_token _ _ _ e5
      dsimp only at e6
      split at e6
      · cases e6
      rename_i hk2
      have hk2 : k2 = .Value := by simpa using hk2
      obtain ⟨s3, c3, rfl, h3⟩ := customScan_value S v hf2 (hv2 hk2) buf (fun c => held s1 c .Error) hall2 hk2 _ e3
      refine ⟨s3, c3, rfl, h3.imp id fun h => ⟨h.1, fun c' => ?_⟩⟩
      obtain ⟨c4, e4⟩ := h.2 c'
      dsimp only at e4
      exact ⟨c4, by show (do let (v, p) ← customScan S BsonP.opsShared v (held s1 c' .Error); return (CVal.one v, p)) = _; rw [e4]; rfl⟩
    | vec vs =>
      obtain ⟨⟨k2, p3⟩, e3, e4⟩ := Res.bind_ok (show (do
        let (k, p) ← (held s1 buf .Error).getToken BsonP.opsShared
        if k ≠ Tok.ArrayStart then throwStd else
        let (vs, p) ← customScans S BsonP.opsShared vs p
        return (CVal.vec vs, p)) = _ from e2)
      obtain ⟨s2, rfl, hf2, hv2, he2, -, hall2⟩ := held_token _ _ _ e3
      dsimp only at e4 hall2
      split at e4
      · cases e4
      rename_i hk2
      obtain ⟨⟨vs', p5⟩, e5, e4⟩ := Res.bind_ok e4
      cases e4
      obtain ⟨s3, c3, rfl, h3⟩ := (customScans_two S vs _ s2 buf rfl).2 hf2 _ e5
      refine ⟨s3, c3, rfl, h3.imp id fun h => ⟨h.1, fun c' => ?_⟩⟩
      obtain ⟨c4, e4⟩ := h.2 c'
      refine ⟨c4, ?_⟩
      show (do
        let (k, p) ← (held s1 c' .Error).getToken BsonP.opsShared
        if k ≠ Tok.ArrayStart then throwStd else
        let (vs, p) ← customScans S BsonP.opsShared vs p
        return (CVal.vec vs, p)) = _
      rw [hall2]
      simp only [Res.ok_bind, if_neg hk2]
      dsimp only at e4
      rw [e4]
      rfl
  obtain ⟨s2, c2, rfl, h2⟩ := two
  obtain ⟨⟨k2, p3⟩, e3, e⟩ := Res.bind_ok e
  obtain ⟨s3, rfl, hf3, hv3, he3, hl3, hall3⟩ := held_token _ _ _ e3
  dsimp only at e hl3 hall3
  split at e
  · cases e
  rename_i hk2
  cases e
  rcases h2 with hl | ⟨-, h2⟩
  · exact absurd ((hl3 hl).2) hk2
  · obtain ⟨c4, e4⟩ := h2 buf'
    dsimp only at e4
    refine ⟨c4, ?_⟩
    rw [e4]
    simp only [Res.ok_bind, hall3, if_neg hk2]
    rfl

end

end Thors
