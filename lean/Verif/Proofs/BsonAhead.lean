import Verif.Proofs.BsonStreamDoc
/-
An import of BSON from a stream depends on the bytes it consumes only.
-/
namespace Thors
open StrIn

theorem Stands.good {bs : Bytes} {i : IStr} (h : Stands bs i) : i.good = true := by simp [IStr.good, h.eof, h.fail]

theorem Stands.of_good {i : IStr} (h : i.good = true) (hl : i.pos ≤ i.data.length) : Stands i.rest i := by
  simp only [IStr.good, Bool.and_eq_true, Bool.not_eq_true'] at h
  exact ⟨rfl, hl, h.1, h.2⟩

theorem Stands.length {bs : Bytes} {i : IStr} (h : Stands bs i) : i.data.length = i.pos + bs.length := by
  have := h.le
  rw [← h.rest, IStr.rest, List.length_drop]
  omega

/-- Moving on over the first part of what is ahead. -/
theorem Stands.move {c bs : Bytes} {i : IStr} (h : Stands (c ++ bs) i) : Stands bs { i with pos := i.pos + c.length } := by
  have hl := h.length
  rw [List.length_append] at hl
  refine ⟨?_, by dsimp only; omega, h.eof, h.fail⟩
  have := h.rest
  unfold IStr.rest at this ⊢
  dsimp only
  rw [← List.drop_drop, this, List.drop_left]

theorem Stands.read {c bs : Bytes} {i : IStr} (h : Stands (c ++ bs) i) : i.read c.length = (c, true, { i with pos := i.pos + c.length }) := by
  unfold IStr.read
  rw [if_neg (by simp [h.good]), show i.data.drop i.pos = c ++ bs from h.rest, List.take_left, if_pos rfl]

theorem Stands.getline {c bs : Bytes} {d : Byte} {i : IStr} (h : Stands (c ++ d :: bs) i) (hc : d ∉ c) :
    i.getline d = (some c, true, { i with pos := i.pos + (c.length + 1) }) := by
  have hu : upTo d (c ++ d :: bs) = c.length := by
    clear h
    induction c with
    | nil => simp [upTo]
    | cons a c ih =>
      simp only [List.mem_cons, not_or] at hc
      rw [List.cons_append, upTo, if_neg (fun e => hc.1 e.symm), ih hc.2, List.length_cons]
  have hl := h.length
  rw [List.length_append, List.length_cons] at hl
  unfold IStr.getline
  rw [if_neg (by simp [h.good]), show i.data.drop i.pos = c ++ d :: bs from h.rest, hu]
  dsimp only
  rw [if_pos (by omega), List.take_left]

theorem Stands.ignore {c bs : Bytes} {i : IStr} (h : Stands (c ++ bs) i) : i.ignore c.length = { i with pos := i.pos + c.length } := by
  have hl := h.length
  rw [List.length_append] at hl
  unfold IStr.ignore
  rw [if_neg (by simp [h.good]), if_pos (by omega)]

/-- What a function from streams does, when it leaves a stream that is good, depends on the bytes it consumes only. -/
def Reads1 {α : Type} (f : IStr → Res (α × IStr)) (i : IStr) : Prop :=
  i.pos ≤ i.data.length → ∀ a i2, f i = .ok (a, i2) → i2.pos ≤ i2.data.length ∧ (i2.good = true → ∃ c, Stands (c ++ i2.rest) i ∧
    ∀ y j, Stands (c ++ y) j → ∃ j2, f j = .ok (a, j2) ∧ Stands y j2)

/-- The same for a function of the parser. -/
def Eats {α : Type} (f : BsonS → Res (α × BsonS)) (s : BsonS) : Prop :=
  s.inp.pos ≤ s.inp.data.length → ∀ a s2, f s = .ok (a, s2) → s2.inp.pos ≤ s2.inp.data.length ∧ (s2.inp.good = true → ∃ c, Stands (c ++ s2.inp.rest) s.inp ∧
    ∀ y j, Stands (c ++ y) j → ∃ j2, f { s with inp := j } = .ok (a, { s2 with inp := j2 }) ∧ Stands y j2)

def Eats1 (f : BsonS → Res BsonS) (s : BsonS) : Prop :=
  s.inp.pos ≤ s.inp.data.length → ∀ s2, f s = .ok s2 → s2.inp.pos ≤ s2.inp.data.length ∧ (s2.inp.good = true → ∃ c, Stands (c ++ s2.inp.rest) s.inp ∧
    ∀ y j, Stands (c ++ y) j → ∃ j2, f { s with inp := j } = .ok { s2 with inp := j2 } ∧ Stands y j2)

/-- A function of the parser that does not touch the stream. -/
def Still {α : Type} (f : BsonS → Res (α × BsonS)) (s : BsonS) : Prop :=
  ∀ a s2, f s = .ok (a, s2) → s2.inp = s.inp ∧ ∀ j, f { s with inp := j } = .ok (a, { s2 with inp := j })

def Still1 (f : BsonS → Res BsonS) (s : BsonS) : Prop :=
  ∀ s2, f s = .ok s2 → s2.inp = s.inp ∧ ∀ j, f { s with inp := j } = .ok { s2 with inp := j }

section
variable {α β : Type} {s : BsonS}

theorem Still.eats {f : BsonS → Res (α × BsonS)} (h : Still f s) : Eats f s := by
  intro hl a s2 e
  obtain ⟨h1, h2⟩ := h a s2 e
  rw [h1]
  exact ⟨hl, fun hg => ⟨[], Stands.of_good hg hl, fun y j hj => ⟨j, h2 j, hj⟩⟩⟩

theorem Still1.eats {f : BsonS → Res BsonS} (h : Still1 f s) : Eats1 f s := by
  intro hl s2 e
  obtain ⟨h1, h2⟩ := h s2 e
  rw [h1]
  exact ⟨hl, fun hg => ⟨[], Stands.of_good hg hl, fun y j hj => ⟨j, h2 j, hj⟩⟩⟩

theorem stands_trans {c d x : Bytes} {i : IStr} {bs : Bytes} (h : Stands (c ++ bs) i) (e : bs = d ++ x) : Stands ((c ++ d) ++ x) i := by
  rw [List.append_assoc, ← e]; exact h

theorem Eats.bind {f : BsonS → Res (α × BsonS)} {g : α → BsonS → Res (β × BsonS)} (h1 : Eats f s)
    (h2 : ∀ a s1, f s = .ok (a, s1) → Eats (g a) s1) :
    Eats (fun s => do let (a, s1) ← f s; g a s1) s := by
  intro hl b s2 e
  obtain ⟨⟨a, s1⟩, e1, e2⟩ := Res.bind_ok e
  dsimp only at e2
  obtain ⟨hl1, hc⟩ := h1 hl a s1 e1
  obtain ⟨hl2, hd⟩ := h2 a s1 e1 hl1 b s2 e2
  refine ⟨hl2, fun hg => ?_⟩
  obtain ⟨d, hd, hd2⟩ := hd hg
  obtain ⟨c, hc, hc2⟩ := hc hd.good
  refine ⟨c ++ d, stands_trans hc hd.rest, fun y j hj => ?_⟩
  rw [List.append_assoc] at hj
  obtain ⟨j1, f1, hj1⟩ := hc2 _ j hj
  obtain ⟨j2, f2, hj2⟩ := hd2 _ j1 hj1
  exact ⟨j2, by dsimp only; rw [f1, Res.ok_bind]; exact f2, hj2⟩

theorem Eats1.bind {f : BsonS → Res BsonS} {g : BsonS → Res (β × BsonS)} (h1 : Eats1 f s)
    (h2 : ∀ s1, f s = .ok s1 → Eats g s1) :
    Eats (fun s => f s >>= g) s := by
  intro hl b s2 e
  obtain ⟨s1, e1, e2⟩ := Res.bind_ok e
  obtain ⟨hl1, hc⟩ := h1 hl s1 e1
  obtain ⟨hl2, hd⟩ := h2 s1 e1 hl1 b s2 e2
  refine ⟨hl2, fun hg => ?_⟩
  obtain ⟨d, hd, hd2⟩ := hd hg
  obtain ⟨c, hc, hc2⟩ := hc hd.good
  refine ⟨c ++ d, stands_trans hc hd.rest, fun y j hj => ?_⟩
  rw [List.append_assoc] at hj
  obtain ⟨j1, f1, hj1⟩ := hc2 _ j hj
  obtain ⟨j2, f2, hj2⟩ := hd2 _ j1 hj1
  exact ⟨j2, by dsimp only; rw [f1, Res.ok_bind]; exact f2, hj2⟩

theorem Eats1.bind1 {f : BsonS → Res BsonS} {g : BsonS → Res BsonS} (h1 : Eats1 f s)
    (h2 : ∀ s1, f s = .ok s1 → Eats1 g s1) :
    Eats1 (fun s => f s >>= g) s := by
  intro hl s2 e
  obtain ⟨s1, e1, e2⟩ := Res.bind_ok e
  obtain ⟨hl1, hc⟩ := h1 hl s1 e1
  obtain ⟨hl2, hd⟩ := h2 s1 e1 hl1 s2 e2
  refine ⟨hl2, fun hg => ?_⟩
  obtain ⟨d, hd, hd2⟩ := hd hg
  obtain ⟨c, hc, hc2⟩ := hc hd.good
  refine ⟨c ++ d, stands_trans hc hd.rest, fun y j hj => ?_⟩
  rw [List.append_assoc] at hj
  obtain ⟨j1, f1, hj1⟩ := hc2 _ j hj
  obtain ⟨j2, f2, hj2⟩ := hd2 _ j1 hj1
  exact ⟨j2, by dsimp only; rw [f1, Res.ok_bind]; exact f2, hj2⟩


theorem Eats.throwStd : Eats (fun _ => (throwStd : Res (α × BsonS))) s := by intro _ a s2 e; cases e
theorem Eats.ub : Eats (fun _ => (.ub : Res (α × BsonS))) s := by intro _ a s2 e; cases e
theorem Eats1.throwStd : Eats1 (fun _ => Thors.throwStd) s := by intro _ s2 e; cases e

end

/-- What `read` does. -/
theorem IStr.read_cases (i : IStr) (n : Nat) (hl : i.pos ≤ i.data.length) :
    (∃ got, got.length = n ∧ i.read n = (got, true, { i with pos := i.pos + n }) ∧ Stands (got ++ ({ i with pos := i.pos + n } : IStr).rest) i ∧ i.pos + n ≤ i.data.length) ∨
    (∃ got i2, i.read n = (got, false, i2) ∧ (0 < n → got.length < n)) := by
  cases hg : i.good with
  | false => exact .inr ⟨[], { i with fail := true }, by unfold IStr.read; rw [if_pos hg], by simp⟩
  | true =>
    by_cases hn : i.pos + n ≤ i.data.length
    · refine .inl ⟨(i.data.drop i.pos).take n, ?_, ?_, ?_, hn⟩
      · rw [List.length_take, List.length_drop]; omega
      · unfold IStr.read
        rw [if_neg (by simp [hg])]
        dsimp only
        rw [if_pos (by rw [List.length_take, List.length_drop]; omega)]
      · have := Stands.of_good hg hl
        unfold IStr.rest at this ⊢
        dsimp only
        rw [← List.drop_drop, List.take_append_drop]
        exact this
    · refine .inr ⟨(i.data.drop i.pos).take n, { i with pos := i.data.length, eof := true, fail := true }, ?_, ?_⟩
      · unfold IStr.read
        rw [if_neg (by simp [hg])]
        dsimp only
        rw [if_neg (by rw [List.length_take, List.length_drop]; omega)]
      · intro _
        rw [List.length_take, List.length_drop]; omega

theorem reads_LE {n : Nat} (hn : 0 < n) (i : IStr) : Reads1 (IStr.readLE n) i := by
  intro hl a i2 e
  unfold IStr.readLE at e
  rcases i.read_cases n hl with ⟨got, h1, h2, h3, h4⟩ | ⟨got, i3, h1, h2⟩
  · rw [h2] at e
    dsimp only at e
    rw [if_neg (by omega)] at e
    cases e
    refine ⟨h4, fun hg => ⟨got, h3, fun y j hj => ⟨{ j with pos := j.pos + got.length }, ?_, hj.move⟩⟩⟩
    unfold IStr.readLE
    subst h1
    rw [hj.read]
    dsimp only
    rw [if_neg (by omega)]
  · rw [h1] at e
    dsimp only at e
    rw [if_pos (h2 hn)] at e
    cases e

namespace BsonS
variable {s : BsonS}

theorem still_use (n : Int) : Still1 (BsonS.use n) s := by
  intro s2 e
  unfold BsonS.use at e ⊢
  cases h : s.left with
  | nil => rw [h] at e; cases e
  | cons l ls => rw [h] at e; cases e; exact ⟨rfl, fun j => by dsimp only⟩

theorem endToken_inp (j : IStr) : BsonS.endToken { s with inp := j } = s.endToken := rfl

theorem still_settle : Still1 BsonS.settle s := by
  intro s2 e
  unfold BsonS.settle at e ⊢
  cases hk : s.skip with
  | false =>
    rw [hk] at e
    cases e
    exact ⟨rfl, fun j => by dsimp only; rw [hk]; rfl⟩
  | true =>
    rw [hk, if_pos rfl] at e
    obtain ⟨t, e1, e2⟩ := Res.bind_ok e
    cases t with
    | none => cases e2; exact ⟨rfl, fun j => by
      dsimp only
      rw [if_pos rfl, show BsonS.endToken ⟨j, s.conts, s.left, s.size, s.next, s.key, s.type, true⟩ = s.endToken from rfl, e1]
      rfl⟩
    | some t => cases e2; exact ⟨rfl, fun j => by
      dsimp only
      rw [if_pos rfl, show BsonS.endToken ⟨j, s.conts, s.left, s.size, s.next, s.key, s.type, true⟩ = s.endToken from rfl, e1]
      rfl⟩

/-- Reading bytes, checked, and then something that does not touch the stream. -/
theorem eats_read1 {n : Nat} {g : Bytes → BsonS → Res BsonS} (hg : ∀ got s1, Still1 (g got) s1) :
    Eats1 (fun s => let (got, good, inp) := s.inp.read n; if good = false then throwStd else g got { s with inp := inp }) s := by
  intro hl s2 e
  dsimp only at e
  rcases s.inp.read_cases n hl with ⟨got, h1, h2, h3, h4⟩ | ⟨got, i3, h1, h2⟩
  · rw [h2] at e
    dsimp only at e
    rw [if_neg (by simp)] at e
    obtain ⟨k1, k2⟩ := hg _ _ _ e
    rw [k1]
    refine ⟨h4, fun _ => ⟨got, h3, fun y j hj => ⟨{ j with pos := j.pos + got.length }, ?_, hj.move⟩⟩⟩
    subst h1
    dsimp only
    rw [hj.read]
    dsimp only
    rw [if_neg (by simp)]
    exact k2 _
  · rw [h1] at e
    dsimp only at e
    rw [if_pos rfl] at e
    cases e

theorem eats_read {α : Type} {n : Nat} {g : Bytes → BsonS → Res (α × BsonS)} (hg : ∀ got s1, Still (g got) s1) :
    Eats (fun s => let (got, good, inp) := s.inp.read n; if good = false then throwStd else g got { s with inp := inp }) s := by
  intro hl a s2 e
  dsimp only at e
  rcases s.inp.read_cases n hl with ⟨got, h1, h2, h3, h4⟩ | ⟨got, i3, h1, h2⟩
  · rw [h2] at e
    dsimp only at e
    rw [if_neg (by simp)] at e
    obtain ⟨k1, k2⟩ := hg _ _ _ _ e
    rw [k1]
    refine ⟨h4, fun _ => ⟨got, h3, fun y j hj => ⟨{ j with pos := j.pos + got.length }, ?_, hj.move⟩⟩⟩
    subst h1
    dsimp only
    rw [hj.read]
    dsimp only
    rw [if_neg (by simp)]
    exact k2 _
  · rw [h1] at e
    dsimp only at e
    rw [if_pos rfl] at e
    cases e

theorem still_bind1 {f g : BsonS → Res BsonS} (h1 : Still1 f s) (h2 : ∀ s1, Still1 g s1) : Still1 (fun s => f s >>= g) s := by
  intro s2 e
  obtain ⟨s1, e1, e2⟩ := Res.bind_ok e
  obtain ⟨a1, a2⟩ := h1 _ e1
  obtain ⟨b1, b2⟩ := h2 _ _ e2
  exact ⟨b1.trans a1, fun j => by dsimp only; rw [a2 j, Res.ok_bind, b2 j]⟩

theorem still_bind {α : Type} {f : BsonS → Res BsonS} {g : BsonS → Res (α × BsonS)} (h1 : Still1 f s) (h2 : ∀ s1, Still g s1) : Still (fun s => f s >>= g) s := by
  intro a s2 e
  obtain ⟨s1, e1, e2⟩ := Res.bind_ok e
  obtain ⟨a1, a2⟩ := h1 _ e1
  obtain ⟨b1, b2⟩ := h2 _ _ _ e2
  exact ⟨b1.trans a1, fun j => by dsimp only; rw [a2 j, Res.ok_bind, b2 j]⟩

theorem still_ite1 {c : Prop} [Decidable c] {f g : BsonS → Res BsonS} (h1 : Still1 f s) (h2 : Still1 g s) : Still1 (fun s => if c then f s else g s) s := by
  by_cases h : c
  · simp only [if_pos h]; exact h1
  · simp only [if_neg h]; exact h2

theorem still_ite {α : Type} {c : Prop} [Decidable c] {f g : BsonS → Res (α × BsonS)} (h1 : Still f s) (h2 : Still g s) : Still (fun s => if c then f s else g s) s := by
  by_cases h : c
  · simp only [if_pos h]; exact h1
  · simp only [if_neg h]; exact h2

theorem still_ok1 : Still1 (fun s => .ok s) s := by intro s2 e; cases e; exact ⟨rfl, fun _ => rfl⟩
theorem still_ok {α : Type} {a : α} : Still (fun s => .ok (a, s)) s := by intro a s2 e; cases e; exact ⟨rfl, fun _ => rfl⟩
theorem still_throw1 : Still1 (fun _ => throwStd) s := by intro s2 e; cases e
theorem still_throw {α : Type} : Still (fun _ => (throwStd : Res (α × BsonS))) s := by intro a s2 e; cases e
theorem still_ub {α : Type} : Still (fun _ => (.ub : Res (α × BsonS))) s := by intro a s2 e; cases e

theorem eats_readEnd : Eats1 BsonS.readEnd s :=
  eats_read1 (g := fun got s => do let s ← s.use 1; if got.headD 0xFF ≠ 0x00 then throwStd else return s) fun _ _ =>
    still_bind1 (still_use 1) fun _ => still_ite1 still_throw1 still_ok1

/-- Reading a number, and then something else. -/
theorem eats_LE {α : Type} {n : Nat} {g : Int → BsonS → Res (α × BsonS)} (hn : 0 < n) (hg : ∀ v s1, Eats (g v) s1) :
    Eats (fun s => do let (v, inp) ← s.inp.readLE n; g v { s with inp := inp }) s := by
  intro hl a s2 e
  obtain ⟨⟨v, i⟩, e1, e2⟩ := Res.bind_ok e
  dsimp only at e2
  obtain ⟨h1, h2⟩ := reads_LE hn s.inp hl _ _ e1
  obtain ⟨h3, h4⟩ := hg _ _ h1 _ _ e2
  refine ⟨h3, fun hg => ?_⟩
  obtain ⟨d, hd, hd2⟩ := h4 hg
  obtain ⟨c, hc, hc2⟩ := h2 hd.good
  refine ⟨c ++ d, stands_trans hc hd.rest, fun y j hj => ?_⟩
  rw [List.append_assoc] at hj
  obtain ⟨j1, f1, hj1⟩ := hc2 _ j hj
  obtain ⟨j2, f2, hj2⟩ := hd2 _ j1 hj1
  exact ⟨j2, by dsimp only; rw [f1, Res.ok_bind]; exact f2, hj2⟩

theorem eats_LE1 {n : Nat} {g : Int → BsonS → Res BsonS} (hn : 0 < n) (hg : ∀ v s1, Eats1 (g v) s1) :
    Eats1 (fun s => do let (v, inp) ← s.inp.readLE n; g v { s with inp := inp }) s := by
  intro hl s2 e
  obtain ⟨⟨v, i⟩, e1, e2⟩ := Res.bind_ok e
  dsimp only at e2
  obtain ⟨h1, h2⟩ := reads_LE hn s.inp hl _ _ e1
  obtain ⟨h3, h4⟩ := hg _ _ h1 _ e2
  refine ⟨h3, fun hg => ?_⟩
  obtain ⟨d, hd, hd2⟩ := h4 hg
  obtain ⟨c, hc, hc2⟩ := h2 hd.good
  refine ⟨c ++ d, stands_trans hc hd.rest, fun y j hj => ?_⟩
  rw [List.append_assoc] at hj
  obtain ⟨j1, f1, hj1⟩ := hc2 _ j hj
  obtain ⟨j2, f2, hj2⟩ := hd2 _ j1 hj1
  exact ⟨j2, by dsimp only; rw [f1, Res.ok_bind]; exact f2, hj2⟩

theorem eats_openLevel : Eats1 BsonS.openLevel s :=
  eats_LE1 (g := fun n s => .ok { s with size := n :: s.size, left := (n - 4) :: s.left }) (by decide) fun _ _ =>
    Still1.eats (by intro s2 e; cases e; exact ⟨rfl, fun _ => rfl⟩)

theorem eats_readInt {n : Nat} (hn : 0 < n) : Eats (BsonS.readInt n) s :=
  (still_use n).eats.bind fun _ _ => eats_LE (g := fun v s => .ok (v, s)) hn fun _ _ => still_ok.eats

theorem eats_getInt (k : IntKind) : Eats (BsonS.getInt k) s := by
  intro hl a s2 e
  have fin : ∀ n, 0 < n → Eats (fun s => do let (v, s) ← s.readInt n; return (castTo k v, s)) s := fun n hn => (eats_readInt hn).bind fun _ _ _ => still_ok.eats
  unfold BsonS.getInt at e ⊢
  by_cases h1 : s.type = 0x10
  · rw [if_pos h1] at e
    obtain ⟨x, y⟩ := fin 4 (by decide) hl a s2 e
    simp only [if_pos h1]
    exact ⟨x, y⟩
  by_cases h2 : s.type = 0x12
  · rw [if_neg h1, if_pos h2] at e
    obtain ⟨x, y⟩ := fin 8 (by decide) hl a s2 e
    simp only [if_neg h1, if_pos h2]
    exact ⟨x, y⟩
  · rw [if_neg h1, if_neg h2] at e
    cases e

theorem eats_readDouble : Eats BsonS.readDouble s :=
  eats_read (g := fun got s => do let s ← s.use 8; if got.length < 8 then .ub else return (bitsDouble (leInt got % (2 ^ 64 : Int)).toNat, s)) fun _ _ =>
    still_bind (still_use 8) fun _ => still_ite still_ub still_ok

theorem eats_getFlt (k : FKind) : Eats (BsonS.getFlt k) s := by
  intro hl a s2 e
  have fin : ∀ n, 0 < n → Eats (fun s => do let (v, s) ← s.readInt n; return (intFlt k v, s)) s := fun n hn => (eats_readInt hn).bind fun _ _ _ => still_ok.eats
  have fin2 : Eats (fun s => do let (x, s) ← s.readDouble; return (castFlt f64 k x, s)) s := eats_readDouble.bind fun _ _ _ => still_ok.eats
  unfold BsonS.getFlt at e ⊢
  by_cases h1 : s.type = 0x10
  · rw [if_pos h1] at e
    obtain ⟨x, y⟩ := fin 4 (by decide) hl a s2 e
    simp only [if_pos h1]
    exact ⟨x, y⟩
  by_cases h2 : s.type = 0x12
  · rw [if_neg h1, if_pos h2] at e
    obtain ⟨x, y⟩ := fin 8 (by decide) hl a s2 e
    simp only [if_neg h1, if_pos h2]
    exact ⟨x, y⟩
  by_cases h3 : s.type = 0x01
  · rw [if_neg h1, if_neg h2, if_pos h3] at e
    obtain ⟨x, y⟩ := fin2 hl a s2 e
    simp only [if_neg h1, if_neg h2, if_pos h3]
    exact ⟨x, y⟩
  · rw [if_neg h1, if_neg h2, if_neg h3] at e
    cases e

theorem eats_readBool : Eats BsonS.readBool s := by
  refine eats_read (g := fun got s => do
    let s ← s.use 1
    match got with
    | [0x00] => return (false, s)
    | [0x01] => return (true, s)
    | _ => .ub) fun got _ => still_bind (still_use 1) fun s => ?_
  split
  · exact still_ok
  · exact still_ok
  · exact still_ub

theorem eats_getBool : Eats BsonS.getBool s := by
  intro hl a s2 e
  unfold BsonS.getBool at e ⊢
  by_cases h1 : s.type ≠ 0x08
  · rw [if_pos h1] at e; cases e
  · rw [if_neg h1] at e
    simp only [if_neg h1]
    exact eats_readBool hl a s2 e

theorem eats_readString (dst : Bytes) : Eats (BsonS.readString dst) s := by
  refine eats_LE (n := 4) (g := fun (n : Int) s => do
      let s ← s.use 4
      if n < 0 then (if dst.length + n < 0 then throwStd else .ub) else
      let (got, good, inp) := s.inp.read n.toNat
      if good = false then throwStd else
      let s ← BsonS.use n { s with inp := inp }
      if dst.length + n - 1 < 0 then throwStd else
      return ((dst ++ got ++ List.replicate (n.toNat - got.length) 0x00).take (dst.length + n - 1).toNat, s)) (by decide) fun n s => ?_
  refine (still_use 4).eats.bind fun s _ => ?_
  by_cases hn : n < 0
  · simp only [if_pos hn]
    split
    · exact .throwStd
    · exact .ub
  · simp only [if_neg hn]
    exact eats_read (g := fun got s => do
      let s ← s.use n
      if dst.length + n - 1 < 0 then throwStd else
      return ((dst ++ got ++ List.replicate (n.toNat - got.length) 0x00).take (dst.length + n - 1).toNat, s)) fun _ _ =>
      still_bind (still_use n) fun _ => still_ite still_throw still_ok

theorem eats_getStr : Eats BsonS.getStr s := by
  intro hl a s2 e
  unfold BsonS.getStr at e ⊢
  by_cases h1 : s.type ≠ 0x02
  · rw [if_pos h1] at e; cases e
  · rw [if_neg h1] at e
    simp only [if_neg h1]
    exact eats_readString [] hl a s2 e

/-- What `getline` does. -/
theorem getline_cases (i : IStr) (hl : i.pos ≤ i.data.length) :
    (∃ c i2, (0x00 : Byte) ∉ c ∧ i.getline 0x00 = (some c, true, i2) ∧ Stands (c ++ 0x00 :: i2.rest) i ∧ i2.pos ≤ i2.data.length) ∨
    (∃ k g i2, i.getline 0x00 = (k, g, i2) ∧ i2.good = false ∧ i2.pos ≤ i2.data.length) := by
  cases hg : i.good with
  | false => exact .inr ⟨none, false, { i with fail := true }, by unfold IStr.getline; rw [if_pos hg], by simp [IStr.good], hl⟩
  | true =>
    have hs := Stands.of_good hg hl
    have hlen := hs.length
    unfold IStr.getline
    rw [if_neg (by simp [hg])]
    dsimp only
    by_cases hm : i.pos + upTo 0x00 (i.data.drop i.pos) < i.data.length
    · rw [if_pos hm]
      have hu : upTo 0x00 i.rest < i.rest.length := by
        show upTo 0x00 (i.data.drop i.pos) < _
        omega
      refine .inl ⟨_, _, fun h => upTo_seg 0x00 _ _ h rfl, rfl, ?_, by dsimp only; omega⟩
      have := upTo_split 0x00 i.rest hu
      unfold IStr.rest at this hs ⊢
      dsimp only
      rw [← List.drop_drop, ← this]
      exact hs
    · rw [if_neg hm]
      refine .inr ?_
      split
      · exact ⟨_, _, _, rfl, by simp [IStr.good], Nat.le_refl _⟩
      · exact ⟨_, _, _, rfl, by simp [IStr.good], Nat.le_refl _⟩

theorem eats_readKey : Eats1 BsonS.readKey s := by
  intro hl s2 e
  unfold BsonS.readKey at e
  rcases s.inp.read_cases 1 hl with ⟨got, h1, h2, h3, h4⟩ | ⟨got, i3, h1, h2⟩
  · rw [h2] at e
    dsimp only at e
    rw [if_neg (by simp)] at e
    rcases getline_cases { s.inp with pos := s.inp.pos + 1 } h4 with ⟨c, i2, hc, k1, k2, k3⟩ | ⟨k, g, i2, k1, k2, k3⟩
    · rw [k1] at e
      dsimp only at e
      rw [if_neg (by simp)] at e
      obtain ⟨u1, u2⟩ := still_use _ _ e
      rw [u1]
      refine ⟨k3, fun _ => ⟨got ++ (c ++ [0x00]), ?_, fun y j hj => ?_⟩⟩
      · refine stands_trans h3 ?_
        rw [k2.rest]
        simp
      · have hj1 : Stands (got ++ (c ++ 0x00 :: y)) j := by simpa using hj
        have hj2 := hj1.move
        have hj3 : Stands ((c ++ [0x00]) ++ y) { j with pos := j.pos + got.length } := by simpa using hj2
        refine ⟨_, ?_, hj3.move⟩
        unfold BsonS.readKey
        have hr := hj1.read
        rw [h1] at hr hj2
        dsimp only
        rw [hr]
        dsimp only
        rw [if_neg (by simp), hj2.getline hc]
        dsimp only
        rw [if_neg (by simp), h1]
        simp only [List.length_append, List.length_cons, List.length_nil]
        exact u2 _
    · rw [k1] at e
      dsimp only at e
      split at e
      · cases e
      · obtain ⟨u1, u2⟩ := still_use _ _ e
        rw [u1]
        exact ⟨k3, fun h => absurd h (by simp [k2])⟩
  · rw [h1] at e
    dsimp only at e
    rw [if_pos rfl] at e
    cases e

/-- What `ignore` does. -/
theorem ignore_cases (i : IStr) (n : Int) (hl : i.pos ≤ i.data.length) :
    (∃ c i2, i.ignoreInt n = i2 ∧ Stands (c ++ i2.rest) i ∧ i2.pos ≤ i2.data.length ∧ ∀ y j, Stands (c ++ y) j → Stands y (j.ignoreInt n)) ∨
    ((i.ignoreInt n).good = false ∧ (i.ignoreInt n).pos ≤ (i.ignoreInt n).data.length) := by
  unfold IStr.ignoreInt
  cases hg : i.good with
  | false =>
    refine .inr ?_
    unfold IStr.ignore
    rw [if_pos rfl, if_pos hg]
    split
    · exact ⟨by simp [IStr.good], hl⟩
    · exact ⟨by simp [IStr.good], hl⟩
  | true =>
    by_cases hn : n < 0
    · simp only [if_pos hn, Bool.true_eq_false, if_false]
      refine .inl ⟨[], i, rfl, Stands.of_good hg hl, hl, fun y j hj => ?_⟩
      rw [if_neg (by simp [hj.good])]
      exact hj
    · simp only [if_neg hn]
      by_cases hm : i.pos + n.toNat ≤ i.data.length
      · have hs : Stands (i.rest.take n.toNat ++ i.rest.drop n.toNat) i := by rw [List.take_append_drop]; exact Stands.of_good hg hl
        have hlen : (i.rest.take n.toNat).length = n.toNat := by
          rw [List.length_take, IStr.rest, List.length_drop]; omega
        have e := hs.ignore
        rw [hlen] at e
        rw [e]
        refine .inl ⟨i.rest.take n.toNat, _, rfl, ?_, hm, fun y j hj => ?_⟩
        · rw [show ({ i with pos := i.pos + n.toNat } : IStr).rest = i.rest.drop n.toNat by unfold IStr.rest; dsimp only; rw [List.drop_drop]]
          exact hs
        · have e2 := hj.ignore
          have h2 := hj.move
          rw [hlen] at e2 h2
          rw [e2]
          exact h2
      · refine .inr ?_
        unfold IStr.ignore
        rw [if_neg (by simp [hg]), if_neg hm]
        exact ⟨by simp [IStr.good], Nat.le_refl _⟩

theorem eats_move (n m : Int) : Eats1 (fun s => BsonS.use m { s with inp := s.inp.ignoreInt n }) s := by
  intro hl s2 e
  obtain ⟨u1, u2⟩ := still_use m _ e
  rw [u1]
  dsimp only
  rcases ignore_cases s.inp n hl with ⟨c, i2, h1, h2, h3, h4⟩ | ⟨h1, h2⟩
  · rw [h1]
    exact ⟨h3, fun _ => ⟨c, h2, fun y j hj => ⟨j.ignoreInt n, u2 _, h4 y j hj⟩⟩⟩
  · exact ⟨h2, fun h => absurd h (by simp [h1])⟩

theorem eats_ignoreSized (extra : Int) : Eats1 (BsonS.ignoreSized extra) s := by
  refine eats_LE1 (n := 4) (g := fun n s => if n + 4 + extra > 2 ^ 31 - 1 then .ub else use (n + 4 + extra) { s with inp := s.inp.ignoreInt (n + extra) }) (by decide) fun n s => ?_
  by_cases h : n + 4 + extra > 2 ^ 31 - 1
  · simp only [if_pos h]; intro _ s2 e; cases e
  · simp only [if_neg h]; exact eats_move _ _

/-- A decision about the state that does not look at the stream. -/
theorem eats1_ite {c : BsonS → Prop} [∀ s, Decidable (c s)] {f g : BsonS → Res BsonS} (hc : ∀ j, c { s with inp := j } ↔ c s) (h1 : c s → Eats1 f s) (h2 : ¬ c s → Eats1 g s) :
    Eats1 (fun s => if c s then f s else g s) s := by
  intro hl s2 e
  by_cases h : c s
  · simp only [if_pos h] at e
    simp only [hc, if_pos h]
    exact h1 h hl s2 e
  · simp only [if_neg h] at e
    simp only [hc, if_neg h]
    exact h2 h hl s2 e

theorem eats_ite {α : Type} {c : BsonS → Prop} [∀ s, Decidable (c s)] {f g : BsonS → Res (α × BsonS)} (hc : ∀ j, c { s with inp := j } ↔ c s) (h1 : c s → Eats f s) (h2 : ¬ c s → Eats g s) :
    Eats (fun s => if c s then f s else g s) s := by
  intro hl a s2 e
  by_cases h : c s
  · simp only [if_pos h] at e
    simp only [hc, if_pos h]
    exact h1 h hl a s2 e
  · simp only [if_neg h] at e
    simp only [hc, if_neg h]
    exact h2 h hl a s2 e

theorem eats_ignoreData : Eats1 BsonS.ignoreDataValue s := by
  have mv : ∀ n : Int, Eats1 (BsonS.ignoreBytes n) s := fun n => eats_move n n
  unfold BsonS.ignoreDataValue
  exact eats1_ite (fun _ => .rfl) (fun _ => still_ok1.eats) fun _ => eats1_ite (fun _ => .rfl) (fun _ => mv 8) fun _ => eats1_ite (fun _ => .rfl) (fun _ => mv 16) fun _ =>
    eats1_ite (fun _ => .rfl) (fun _ => mv 4) fun _ => eats1_ite (fun _ => .rfl) (fun _ => mv 8) fun _ => eats1_ite (fun _ => .rfl) (fun _ => mv 12) fun _ =>
    eats1_ite (fun _ => .rfl) (fun _ => mv 1) fun _ => eats1_ite (fun _ => .rfl) (fun _ => mv 8) fun _ => eats1_ite (fun _ => .rfl) (fun _ => mv 8) fun _ =>
    eats1_ite (fun _ => .rfl) (fun _ => still_ok1.eats) fun _ => eats1_ite (fun _ => .rfl) (fun _ => eats_ignoreSized 0) fun _ =>
    eats1_ite (fun _ => .rfl) (fun _ => eats_ignoreSized 1) fun _ => .throwStd

theorem eats_congr {α : Type} {f g : BsonS → Res (α × BsonS)} (h : ∀ j, f { s with inp := j } = g { s with inp := j }) (hg : Eats g s) : Eats f s := by
  intro hl a s2 e
  have e' : g s = .ok (a, s2) := (h s.inp).symm.trans e
  obtain ⟨h1, h2⟩ := hg hl a s2 e'
  refine ⟨h1, fun hgd => ?_⟩
  obtain ⟨c, hc, hc2⟩ := h2 hgd
  refine ⟨c, hc, fun y j hj => ?_⟩
  obtain ⟨j2, f2, hj2⟩ := hc2 y j hj
  exact ⟨j2, (h j).trans f2, hj2⟩

theorem eats_opened (tok : Tok) : Eats (fun s => do
    let s ← s.openLevel
    match s.left, s.conts with
    | l :: _, c :: _ =>
      if (l - 1) % (2 ^ 64 : Int) = 0 then return (tok, { s with next := if c = .Map then .MapEnd else .ArrayEnd })
      else return (tok, { s with next := .Key })
    | l :: _, [] => if (l - 1) % (2 ^ 64 : Int) = 0 then .ub else return (tok, { s with next := .Key })
    | [], _ => .ub) s := by
  refine eats_openLevel.bind fun s _ => Still.eats ?_
  intro a s2 e
  dsimp only at e ⊢
  cases h1 : s.left with
  | nil => rw [h1] at e; cases e
  | cons l ls =>
    rw [h1] at e
    cases h2 : s.conts with
    | nil =>
      rw [h2] at e
      dsimp only at e ⊢
      split at e
      · cases e
      · rename_i h3; cases e; exact ⟨rfl, fun j => by rw [if_neg h3]; rfl⟩
    | cons c cs =>
      rw [h2] at e
      dsimp only at e ⊢
      split at e
      · rename_i h3; cases e; exact ⟨rfl, fun j => by rw [if_pos h3]; rfl⟩
      · rename_i h3; cases e; exact ⟨rfl, fun j => by rw [if_neg h3]; rfl⟩

theorem eats_closed (tok : Tok) : Eats (fun s => do
    let s ← s.readEnd
    match s.conts, s.left, s.size with
    | [_], _ :: ls, _ :: zs => return (tok, { s with conts := [], left := ls, size := zs, next := .DocEnd })
    | _ :: c :: cs, _ :: l :: ls, z :: zs => do
      let s := { s with conts := c :: cs, left := (l - z) :: ls, size := zs }
      match ← s.endToken with
      | some t => return (tok, { s with next := t })
      | none => return (tok, { s with next := .Key })
    | _, _, _ => .ub) s := by
  refine eats_readEnd.bind fun s _ => Still.eats ?_
  obtain ⟨inp, conts, left, size, next, key, type, skip⟩ := s
  intro a s2 e
  dsimp only at e ⊢
  split at e
  · cases e; exact ⟨rfl, fun j => rfl⟩
  · rename_i c cs z l ls z2 zs _
    obtain ⟨t, e1, e2⟩ := Res.bind_ok e
    cases t with
    | none => cases e2; exact ⟨rfl, fun j => by rw [show BsonS.endToken ⟨j, c :: cs, (l - z2) :: ls, zs, next, key, type, skip⟩ = _ from e1]; rfl⟩
    | some t => cases e2; exact ⟨rfl, fun j => by rw [show BsonS.endToken ⟨j, c :: cs, (l - z2) :: ls, zs, next, key, type, skip⟩ = _ from e1]; rfl⟩
  · cases e

theorem eats_handOut : Eats BsonS.handOut s := by
  cases hn : s.next with
  | DocStart =>
    cases hc : s.conts with
    | nil => exact eats_congr (g := fun _ => .ub) (fun j => by simp only [BsonS.handOut, hn, hc]) .ub
    | cons c cs =>
      cases c with
      | Map => exact eats_congr (g := fun s => .ok (.DocStart, { s with next := .MapStart })) (fun j => by simp only [BsonS.handOut, hn, hc]) (Still.eats (by intro a s2 e; cases e; exact ⟨rfl, fun _ => rfl⟩))
      | Array => exact eats_congr (g := fun s => .ok (.DocStart, { s with next := .ArrayStart })) (fun j => by simp only [BsonS.handOut, hn, hc]) (Still.eats (by intro a s2 e; cases e; exact ⟨rfl, fun _ => rfl⟩))
      | Value =>
        refine eats_congr (g := fun s => (.ok { s with next := .Key, conts := .Value :: s.conts } : Res BsonS) >>= fun s => do let s ← s.openLevel; return (.DocStart, s)) (fun j => by simp only [BsonS.handOut, hn, hc, Res.ok_bind]) ?_
        exact (Still1.eats (by intro s2 e; cases e; exact ⟨rfl, fun _ => rfl⟩)).bind fun _ _ => eats_openLevel.bind fun _ _ => still_ok.eats
  | DocEnd =>
    by_cases hc : s.conts.head? = some .Value
    · refine eats_congr (g := fun s => do let s ← s.readEnd; return (.DocEnd, { s with next := .Error })) (fun j => by simp only [BsonS.handOut, hn, hc, if_true]) ?_
      exact eats_readEnd.bind fun _ _ => Still.eats (by intro a s2 e; cases e; exact ⟨rfl, fun _ => rfl⟩)
    · refine eats_congr (g := fun s => .ok (.DocEnd, { s with next := .Error })) (fun j => by simp only [BsonS.handOut, hn, hc, if_false, Res.ok_bind]; rfl) ?_
      exact Still.eats (by intro a s2 e; cases e; exact ⟨rfl, fun _ => rfl⟩)
  | MapStart => exact eats_congr (fun j => by simp only [BsonS.handOut, hn]; rfl) (eats_opened .MapStart)
  | ArrayStart => exact eats_congr (fun j => by simp only [BsonS.handOut, hn]; rfl) (eats_opened .ArrayStart)
  | MapEnd => exact eats_congr (fun j => by simp only [BsonS.handOut, hn]; rfl) (eats_closed .MapEnd)
  | ArrayEnd => exact eats_congr (fun j => by simp only [BsonS.handOut, hn]; rfl) (eats_closed .ArrayEnd)
  | Value => exact eats_congr (g := fun s => .ok (.Value, { s with skip := true })) (fun j => by simp only [BsonS.handOut, hn]) (Still.eats (by intro a s2 e; cases e; exact ⟨rfl, fun _ => rfl⟩))
  | Key => exact eats_congr (g := fun _ => throwStd) (fun j => by simp only [BsonS.handOut, hn]) .throwStd
  | Error => exact eats_congr (g := fun _ => throwStd) (fun j => by simp only [BsonS.handOut, hn]) .throwStd

theorem eats_next : Eats BsonS.getNextToken s := by
  unfold BsonS.getNextToken
  refine still_settle.eats.bind fun s _ => ?_
  refine eats_ite (c := fun s => s.next = .Key) (fun _ => .rfl) (fun _ => ?_) fun _ => eats_handOut
  refine eats_readKey.bind fun s _ => ?_
  cases hc : s.conts with
  | nil => exact eats_congr (g := fun _ => .ub) (fun j => by simp only [hc]) .ub
  | cons c cs =>
    have fin : ∀ (u : BsonS → BsonS), (∀ s j, u { s with inp := j } = { u s with inp := j }) →
        Eats (fun s => if c = .Map then return (Tok.Key, u s) else (u s).handOut) s := by
      intro u hu
      have h1 : Still1 (fun s => .ok (u s)) s := by
        intro s2 e; cases e
        have hi := congrArg BsonS.inp (hu s s.inp)
        exact ⟨hi, fun j => congrArg Res.ok (hu s j)⟩
      refine eats_congr (g := fun s => (.ok (u s) : Res BsonS) >>= fun s => if c = .Map then return (Tok.Key, s) else s.handOut) (fun j => by simp only [Res.ok_bind]) ?_
      refine h1.eats.bind fun s _ => ?_
      split
      · exact still_ok.eats
      · exact eats_handOut
    by_cases h3 : s.type = 0x03
    · exact eats_congr (fun j => by simp only [hc, h3, if_true]) (fin (fun s => { s with conts := .Map :: s.conts, next := .MapStart }) fun _ _ => rfl)
    by_cases h4 : s.type = 0x04
    · exact eats_congr (fun j => by dsimp only; simp only [hc, if_neg h3, if_pos h4]) (fin (fun s => { s with conts := .Array :: s.conts, next := .ArrayStart }) fun _ _ => rfl)
    · exact eats_congr (fun j => by simp only [hc, h3, h4, if_false]) (fin (fun s => { s with next := .Value }) fun _ _ => rfl)

end BsonS

/-! ### Two streams with the same bytes ahead -/

/-- A parser on a stream that stands somewhere is the parser on a string with the rest. -/
theorem live_of_stands {bs : Bytes} {s : BsonS} (h : Stands bs s.inp) (hv : s.skip = true → s.next = .Value) :
    BLive False (s.inp.data.take s.inp.pos) ⟨⟨bs, 0, true⟩, s.conts, s.left, s.size, s.next, s.key, s.type, s.skip⟩ s := by
  refine ⟨rfl, ⟨?_, ?_, Nat.zero_le _, h.eof, h.fail, fun h => h.elim⟩, hv⟩
  · rw [h.eq]; simp
  · rw [h.eq]; simp

/-- The same bytes are ahead, then `x` for the first parser, `y` for the second; what is ahead is the end of `b`. -/
def Together (b x y : Bytes) (s s' : BsonS) : Prop :=
  ∃ c, Stands (c ++ x) s.inp ∧ Stands (c ++ y) s'.inp ∧ s' = { s with inp := s'.inp } ∧ (s.skip = true → s.next = .Value) ∧ c ++ x <:+ b

/-- The first parser has run out of data, or has gone into `x`. -/
def Apart (x : Bytes) (s : BsonS) : Prop := BLost' s ∨ (s.inp.rest.length < x.length ∧ s.inp.good = true ∧ s.inp.pos ≤ s.inp.data.length ∧ (s.skip = true → s.next = .Value))

def FromAhead (b x y : Bytes) (s : BsonS) : Option BsonS → Prop
  | some s' => Together b x y s s'
  | none => Apart x s

theorem Eats.sim {α : Type} {b x y : Bytes} {f : BsonS → Res (α × BsonS)} {s s' : BsonS} (h : Eats f s) (ht : Together b x y s s') {K : α → BsonS → Prop}
    (hv : Yields (fun r => (r.2.skip = true → r.2.next = .Value) ∧ (r.2.inp.good = false → BLost' r.2 ∧ K r.1 r.2)) (f s)) :
    Sim (fun a s g => FromAhead b x y s g ∧ (g = none → s.inp.rest.length < x.length ∨ K a s)) (f s) (some s') f := by
  obtain ⟨c, h1, h2, h3, h4, h5⟩ := ht
  intro a s2 e
  obtain ⟨v1, v2⟩ := hv _ e
  obtain ⟨hl, hc⟩ := h h1.le a s2 e
  cases hg : s2.inp.good with
  | false =>
    obtain ⟨k1, k2⟩ := v2 hg
    exact ⟨none, ⟨.inl k1, fun _ => .inr k2⟩, by simp⟩
  | true =>
    obtain ⟨d, hd, hd2⟩ := hc hg
    have e1 : d ++ s2.inp.rest = c ++ x := by rw [← hd.rest, h1.rest]
    rcases Nat.lt_or_ge s2.inp.rest.length x.length with hlt | hge
    · exact ⟨none, ⟨.inr ⟨hlt, hg, hl, v1⟩, fun _ => .inl hlt⟩, by simp⟩
    · have hle : d.length ≤ c.length := by
        have := congrArg List.length e1
        simp only [List.length_append] at this
        omega
      obtain ⟨c', rfl⟩ : ∃ c', c = d ++ c' := ⟨c.drop d.length, by
        have := congrArg (List.take d.length) e1
        rw [List.take_left, List.take_append_of_le_length hle] at this
        conv => rhs; lhs; rw [this]
        rw [List.take_append_drop]⟩
      rw [List.append_assoc] at e1 h2
      have e2 : s2.inp.rest = c' ++ x := List.append_cancel_left e1
      obtain ⟨j2, f1, hj2⟩ := hd2 _ _ h2
      refine ⟨some { s2 with inp := j2 }, ⟨⟨c', ?_, hj2, rfl, v1, (List.suffix_append d _).trans (by rw [← List.append_assoc]; exact h5)⟩, by simp⟩, fun p' hp => ?_⟩
      · rw [← e2]; exact Stands.of_good hg hl
      · cases hp
        exact ⟨s', rfl, by rw [h3]; exact f1⟩

theorem Eats1.sim {b x y : Bytes} {f : BsonS → Res BsonS} {s s' : BsonS} (h : Eats1 f s) (ht : Together b x y s s')
    (hv : Yields (fun r => (r.skip = true → r.next = .Value) ∧ (r.inp.good = false → BLost' r)) (f s)) :
    Sim1 (FromAhead b x y) (f s) (some s') f := by
  have h2 : Eats (fun s => do let s ← f s; return ((), s)) s := h.bind fun _ _ => BsonS.still_ok.eats
  have hs := h2.sim (K := fun _ _ => True) ht (hv.bind fun r hr => .ok ⟨hr.1, fun hg => ⟨hr.2 hg, trivial⟩⟩)
  intro s2 e
  obtain ⟨g, h3, h4⟩ := hs () s2 (by rw [e]; rfl)
  refine ⟨g, h3.1, fun p' hp => ?_⟩
  obtain ⟨q, e1, e2⟩ := h4 p' hp
  obtain ⟨z, e3, e4⟩ := Res.bind_ok e2
  cases e4
  exact ⟨q, e1, e3⟩

/-- A parser that has gone too far does not come back. -/
theorem Eats.past {α : Type} {x : Bytes} {f : BsonS → Res (α × BsonS)} {s : BsonS} (h : Eats f s) (hl : s.inp.pos ≤ s.inp.data.length) (hx : s.inp.rest.length < x.length) {K : α → BsonS → Prop}
    (hv : Yields (fun r => (r.2.skip = true → r.2.next = .Value) ∧ (r.2.inp.good = false → BLost' r.2 ∧ K r.1 r.2)) (f s)) :
    Yields (fun r => Apart x r.2 ∧ (r.2.inp.rest.length < x.length ∨ K r.1 r.2)) (f s) := by
  rintro ⟨a, s2⟩ e
  obtain ⟨v1, v2⟩ := hv _ e
  obtain ⟨hl, hc⟩ := h hl a s2 e
  cases hg : s2.inp.good with
  | false => obtain ⟨k1, k2⟩ := v2 hg; exact ⟨.inl k1, .inr k2⟩
  | true =>
    obtain ⟨d, hd, -⟩ := hc hg
    have hlt : s2.inp.rest.length < x.length := by
      have := congrArg List.length hd.rest
      simp only [List.length_append] at this
      omega
    exact ⟨.inr ⟨hlt, hg, hl, v1⟩, .inl hlt⟩

theorem Eats1.past {x : Bytes} {f : BsonS → Res BsonS} {s : BsonS} (h : Eats1 f s) (hl : s.inp.pos ≤ s.inp.data.length) (hx : s.inp.rest.length < x.length)
    (hv : Yields (fun r => (r.skip = true → r.next = .Value) ∧ (r.inp.good = false → BLost' r)) (f s)) : Yields (Apart x) (f s) := by
  have h2 : Eats (fun s => do let s ← f s; return ((), s)) s := h.bind fun _ _ => BsonS.still_ok.eats
  have hs := h2.past (x := x) (K := fun _ _ => True) hl hx (hv.bind fun r hr => .ok ⟨hr.1, fun hg => ⟨hr.2 hg, trivial⟩⟩)
  intro s2 e
  exact (hs ((), s2) (by rw [e]; rfl)).1

theorem BLive.inv {w : Prop} {pre : Bytes} {p : BsonP} {s : BsonS} (h : BLive w pre p s) : s.inp.good = true ∧ (s.skip = true → s.next = .Value) := by
  refine ⟨h.inp.good, ?_⟩
  have := h.value
  rw [h.eq]
  exact this

section
variable {bs : Bytes} {s : BsonS}

theorem next_inv (h : Stands bs s.inp) (hv : s.skip = true → s.next = .Value) :
    Yields (fun r => (r.1 = .Value → r.2.skip = true) ∧ (r.2.skip = true → r.2.next = .Value) ∧ (r.2.inp.good = false → BLost' r.2 ∧ r.1 ≠ .DocEnd)) s.getNextToken := by
  rcases (live_of_stands h hv).next with ⟨⟨t, p⟩, ⟨t', s2⟩, e1, e2, rfl, hl, hk⟩ | ⟨-, hd⟩
  · rintro r e
    rw [e2] at e
    cases e
    refine ⟨fun h => ?_, hl.inv.2, fun hg => absurd hl.inv.1 (by simp [hg])⟩
    have hl : BLive _ _ p s2 := hl
    rw [hl.eq]
    exact hk h
  · exact hd.mono fun r hr => ⟨hr.2.1, hr.1.value, fun _ => ⟨hr.1, hr.2.2⟩⟩

theorem scalar_inv {α : Type} {f : BsonS → Res (α × BsonS)} {r : Res (α × BsonP)} {pre : Bytes} {D : α × BsonP → Prop}
    (h : Agree (fun (x : α × BsonP) y => x.1 = y.1 ∧ BLive False pre x.2 y.2) D (fun _ => False) r (f s)) :
    Yields (fun r => (r.2.skip = true → r.2.next = .Value) ∧ (r.2.inp.good = false → BLost' r.2 ∧ True)) (f s) := by
  rcases h with ⟨x, y, e1, e2, -, hl⟩ | ⟨-, hd⟩
  · intro r e
    rw [e2] at e
    cases e
    exact ⟨hl.inv.2, fun hg => absurd hl.inv.1 (by simp [hg])⟩
  · exact hd.mono fun _ h => h.elim

theorem ignore_inv (hg : s.inp.good = true) (hv : s.skip = true → s.next = .Value) :
    Yields (fun r => (r.skip = true → r.next = .Value) ∧ (r.inp.good = false → BLost' r)) s.ignoreDataValue := by
  unfold BsonS.ignoreDataValue
  have ok : Yields (fun r => (r.skip = true → r.next = .Value) ∧ (r.inp.good = false → BLost' r)) (.ok s) := .ok ⟨hv, fun h => absurd hg (by simp [h])⟩
  by_cases hk : s.skip = false
  · rw [if_pos hk]; exact ok
  rw [if_neg hk]
  have hn : s.next = .Value := hv (by simpa using hk)
  have us : ∀ m i, Yields (fun r => (r.skip = true → r.next = .Value) ∧ (r.inp.good = false → BLost' r)) (BsonS.use m { s with inp := i }) := by
    intro m i r e
    unfold BsonS.use at e
    split at e
    · cases e
    · cases e
      exact ⟨fun _ => hn, fun h => ⟨h, fun e => absurd (hn.symm.trans e) (by decide), fun _ => hn⟩⟩
  have mv : ∀ n : Int, Yields (fun r => (r.skip = true → r.next = .Value) ∧ (r.inp.good = false → BLost' r)) (s.ignoreBytes n) := fun n => us n _
  have sz : ∀ n : Int, Yields (fun r => (r.skip = true → r.next = .Value) ∧ (r.inp.good = false → BLost' r)) (s.ignoreSized n) := by
    intro n
    unfold BsonS.ignoreSized
    refine Yields.bind (P := fun _ => True) (fun _ _ => trivial) ?_
    rintro ⟨v, i⟩ -
    exact .ite .ub (us _ _)
  exact .ite (mv 8) <| .ite (mv 16) <| .ite (mv 4) <| .ite (mv 8) <| .ite (mv 12) <| .ite (mv 1) <| .ite (mv 8) <| .ite (mv 8) <|
    .ite ok <| .ite (sz 0) <| .ite (sz 1) .throwStd

end

/-- An operation on a value that is current. -/
theorem ahead_scalar {α : Type} {b x y : Bytes} {f : BsonS → Res (α × BsonS)} {s : BsonS} {g : Option BsonS} (h : FromAhead b x y s g) (hf : Eats f s)
    (h1 : ∀ bs, Stands bs s.inp → (s.skip = true → s.next = .Value) → Yields (fun r => (r.2.skip = true → r.2.next = .Value) ∧ (r.2.inp.good = false → BLost' r.2 ∧ True)) (f s))
    (h2 : BLost' s → Yields (fun _ => False) (f s)) : Sim (fun _ s g => FromAhead b x y s g) (f s) g f := by
  cases g with
  | some s' =>
    obtain ⟨c, k1, k2, k3, k4, k5⟩ := h
    exact (hf.sim (K := fun _ _ => True) ⟨c, k1, k2, k3, k4, k5⟩ (h1 _ k1 k4)).mono fun _ _ _ h => h.1
  | none =>
    rcases h with h | ⟨k1, k2, k3, k4⟩
    · exact (h2 h).lost fun _ _ h => h.elim
    · exact (hf.past (K := fun _ _ => True) k3 k1 (h1 _ (Stands.of_good k2 k3) k4)).lost fun _ _ h => h.1

theorem bson_ahead (b x y : Bytes) : SimOps BsonS.ops BsonS.ops True (FromAhead b x y) (fun s => s.skip = true) (fun s g => g = none → s.inp.rest.length < x.length) where
  next s g h := by
    have hd : ∀ a (s : BsonS) {g : Option BsonS}, (g = none → s.inp.rest.length < x.length ∨ a ≠ Tok.DocEnd) → a = .DocEnd → g = none → s.inp.rest.length < x.length :=
      fun a s g h e hn => (h hn).elim id fun h => absurd e h
    cases g with
    | some s' =>
      obtain ⟨c, k1, k2, k3, k4, k5⟩ := h
      have hi := next_inv k1 k4
      have hs := BsonS.eats_next.sim (K := fun a _ => a ≠ Tok.DocEnd) ⟨c, k1, k2, k3, k4, k5⟩ (hi.mono fun _ h => h.2)
      intro a s2 e
      obtain ⟨g2, h1, h2⟩ := hs a s2 e
      exact ⟨g2, ⟨h1.1, (hi _ e).1, hd a s2 h1.2⟩, h2⟩
    | none =>
      rcases h with h | ⟨k1, k2, k3, k4⟩
      · exact (BLost'.next h).lost fun a p h => ⟨.inl h.1, h.2.1, fun e => absurd e h.2.2⟩
      · have hi := next_inv (Stands.of_good k2 k3) k4
        have hs := BsonS.eats_next.past (x := x) (K := fun a _ => a ≠ Tok.DocEnd) k3 k1 (hi.mono fun _ h => h.2)
        intro a s2 e
        exact ⟨none, ⟨(hs _ e).1, (hi _ e).1, hd a s2 fun _ => (hs _ e).2⟩, by simp⟩
  getKey s g h := by
    intro a p e
    cases e
    refine ⟨g, h, ?_⟩
    rintro p' rfl
    obtain ⟨c, k1, k2, k3, k4, k5⟩ := h
    exact ⟨p', rfl, by rw [k3]; rfl⟩
  getInt k s g h _ := ahead_scalar h (BsonS.eats_getInt k) (fun _ h1 h2 => scalar_inv ((live_of_stands h1 h2).getInt k)) fun h => h.getInt k
  getFlt f s g h _ := ahead_scalar h (BsonS.eats_getFlt f) (fun _ h1 h2 => scalar_inv ((live_of_stands h1 h2).getFlt f)) fun h => h.getFlt f
  getBool s g h _ := ahead_scalar h BsonS.eats_getBool (fun _ h1 h2 => scalar_inv (live_of_stands h1 h2).getBool) fun h => h.getBool
  getStr s g h hk := ahead_scalar h BsonS.eats_getStr (fun _ h1 h2 => scalar_inv ((live_of_stands h1 h2).getStr hk)) fun h => h.getStr
  isNull s s' h := by
    obtain ⟨c, k1, k2, k3, k4, k5⟩ := h
    rw [k3]
    rfl
  ignoreData s g h _ := by
    cases g with
    | some s' =>
      obtain ⟨c, k1, k2, k3, k4, k5⟩ := h
      exact BsonS.eats_ignoreData.sim ⟨c, k1, k2, k3, k4, k5⟩ (ignore_inv k1.good k4)
    | none =>
      rcases h with h | ⟨k1, k2, k3, k4⟩
      · exact (BLost'.ignoreData h).lost1 fun _ h => .inl h
      · exact (BsonS.eats_ignoreData.past k3 k1 (ignore_inv k2 k4)).lost1 fun _ h => h

/-- An import reads some first part of what is ahead, leaves the stream behind it, and depends on this part only. -/
theorem bson_stream_ahead (env : Env) (cfg : Cfg) (ty : Ty) (old : Val) {bs : Bytes} {i : IStr} (hi : Stands bs i) {v : Val} {i' : IStr} (h : bsonStreamImport env cfg ty old i = .ok (v, i')) :
    ∃ c r, bs = c ++ r ∧ Stands r i' ∧ ∀ y j, Stands (c ++ y) j → ∃ j', bsonStreamImport env cfg ty old j = .ok (v, j') ∧ Stands y j' := by
  unfold bsonStreamImport at h
  obtain ⟨⟨v', q⟩, h1, h2⟩ := Res.bind_ok h
  cases h2
  have hj : FromAhead bs [] [] (BsonS.ofStream (bsonBase env ty) i) (some (BsonS.ofStream (bsonBase env ty) i)) :=
    ⟨bs, by rw [List.append_nil]; exact hi, by rw [List.append_nil]; exact hi, rfl, by simp [BsonS.ofStream], by simp⟩
  rcases import_sim_or (bson_ahead bs [] []) env cfg (fun _ => trivial) ty old hj h1 with ⟨q', -, r, k1, -, -, -, k2⟩ | ⟨-, k⟩
  · rw [List.append_nil] at k1 k2
    obtain ⟨c, rfl⟩ := k2
    refine ⟨c, r, rfl, k1, fun y j hy => ?_⟩
    have hj : FromAhead (c ++ r) r y (BsonS.ofStream (bsonBase env ty) i) (some (BsonS.ofStream (bsonBase env ty) j)) :=
      ⟨c, hi, hy, rfl, by simp [BsonS.ofStream], by simp⟩
    rcases import_sim_or (bson_ahead (c ++ r) r y) env cfg (fun _ => trivial) ty old hj h1 with ⟨q', e, d, m1, m2, -⟩ | ⟨-, k⟩
    · have hd : d = [] := by
        have := m1.rest.symm.trans k1.rest
        have := congrArg List.length this
        simp only [List.length_append] at this
        exact List.length_eq_zero_iff.1 (by omega)
      subst hd
      exact ⟨q'.inner.inp, by unfold bsonStreamImport; rw [e]; rfl, m2⟩
    · exact absurd (k rfl) (by rw [k1.rest]; omega)
  · exact absurd (k rfl) (by simp)

end Thors
