import Verif.Proofs.Track
import Verif.Proofs.BsonShort
import Verif.Proofs.BsonStream
import Verif.Proofs.BsonNum
import Verif.Proofs.JsonString
import Verif.Spec.BsonGrammar
/-
The BSON parser along arbitrary bytes: between the values it is at a place of the grammar, or there is nothing left to read.
-/
namespace Thors
open Spec StrIn

/-- A place in a document: what is in front of the value, its type byte, and the open containers around it. -/
structure BPlace where
  pre : Bytes
  ty : Byte
  conts : List BCont
  left : List Int
  size : List Int

/-- The token that follows a value. -/
def bdue (cs : List BCont) (l : Int) : Tok :=
  if (l - 1) % (2 ^ 64 : Int) = 0 then
    (match cs with
    | .Map :: _ => .MapEnd
    | .Array :: _ => .ArrayEnd
    | _ => .DocEnd)
  else .Key

/-- The elements of a container. -/
def BContent (g : BRules) : BCont → Bytes → Prop
  | .Map, es => g.Members es
  | _, es => ∃ n, g.Elements n es

/-- The type byte of a container. -/
def contType : BCont → Byte
  | .Map => 0x03
  | _ => 0x04

theorem le_leInt {sz : Bytes} (h : sz.length = 4) : le 4 (leInt sz) = sz := by rw [← leBytes_eq_le, ← h, leBytes_leInt]

theorem content_more {S : Ty → Prop} {weak : Prop} {m : BCont} {es k q : Bytes} {t : Byte} (h : BContent (blax S weak) m es) (hk : (0x00 : Byte) ∉ k)
    (hq : (blax S weak).Payload t q) : BContent (blax S weak) m (es ++ (t :: k ++ [0x00] ++ q)) := by
  cases m
  case Map => exact .more h hk hq
  all_goals exact ⟨_, .more h.choose_spec hk trivial hq⟩

/-- A container that has come to its end is as long as its length says. -/
theorem content_close {S : Ty → Prop} {weak : Prop} {m : BCont} {es sz : Bytes} (hm : m ≠ .Value) (h : BContent (blax S weak) m es) (hz : sz.length = 4)
    (hl : leInt sz = 5 + es.length) : (blax S weak).Payload (contType m) (sz ++ es ++ [0x00]) := by
  have hb := BsonP.leInt_bound4 hz
  have hf : framed es = sz ++ es ++ [0x00] := by
    unfold framed
    rw [show ((4 + es.length + 1 : Nat) : Int) = leInt sz by omega, le_leInt hz]
  have hlen : (framed es).length < 2 ^ 31 := by
    rw [hf]; simp only [List.length_append, hz, List.length_cons, List.length_nil]; omega
  rw [← hf]
  cases m
  case Map => exact .obj h hlen
  case Array => exact .arr h.choose_spec hlen
  case Value => exact absurd rfl hm

/-! ### the input -/

/-- The next byte is the one behind `p`. -/
def SPos (D p : Bytes) (i : StrIn) : Prop := i.data = D ∧ i.pos = p.length ∧ ∃ post, D = p ++ post

/-- Nothing is left. -/
def SGone (D : Bytes) (i : StrIn) : Prop := i.data = D ∧ D.length ≤ i.pos

namespace BTrk
variable {D p : Bytes} {i : StrIn}

/-- At `p`, or nothing is left. -/
def BIn (D p : Bytes) (i : StrIn) : Prop := SGone D i ∨ SPos D p i

theorem read_full {n : Nat} (hn : 0 < n) (h : BIn D p i) : Yields (fun x => x.1.length ≤ n ∧ (x.1.length = n → SPos D (p ++ x.1) x.2.2)) (i.read n) := by
  intro x e
  unfold StrIn.read at e
  split at e
  · cases e
  cases e
  dsimp only
  refine ⟨by simp; omega, ?_⟩
  intro hl
  rcases h with ⟨h1, h2⟩ | ⟨h1, h2, post, h3⟩
  · rw [List.drop_eq_nil_of_le (by rw [h1]; exact h2)] at hl
    simp at hl; omega
  · refine ⟨h1, ?_, post.drop n, ?_⟩
    · dsimp only; rw [h2, List.length_append]
    · rw [h1, h2, h3, List.drop_left, List.append_assoc, List.take_append_drop]

theorem read_some {n : Nat} (h : BIn D p i) : Yields (fun x => x.2.1 = true → SGone D x.2.2 ∨ (x.1.length = n ∧ SPos D (p ++ x.1) x.2.2)) (i.read n) := by
  intro x e
  unfold StrIn.read at e
  split at e
  · cases e
  cases e
  dsimp only
  intro _
  rcases h with ⟨h1, h2⟩ | ⟨h1, h2, post, h3⟩
  · exact .inl ⟨h1, by dsimp only; omega⟩
  · rw [h1, h2, h3, List.drop_left]
    by_cases hl : n ≤ post.length
    · right
      refine ⟨by simp [hl], rfl, by simp, post.drop n, by simp⟩
    · left
      refine ⟨rfl, ?_⟩
      simp only [List.length_append, List.length_take]
      omega

theorem readTo_some (h : BIn D p i) : Yields (fun x => x.2.1 = true → (0x00 : Byte) ∉ x.1 ∧ (SGone D x.2.2 ∨ SPos D (p ++ x.1 ++ [0x00]) x.2.2)) (i.readTo 0x00) := by
  intro x e
  unfold StrIn.readTo at e
  split at e
  · cases e
  next hp =>
  cases e
  dsimp only
  intro hg
  have hg : i.pos + (upTo 0x00 (i.data.drop i.pos) + 1) ≤ i.data.length := by simpa using hg
  refine ⟨fun hm => upTo_seg _ _ _ hm rfl, ?_⟩
  rcases h with ⟨h1, h2⟩ | ⟨h1, h2, post, h3⟩
  · exfalso
    rw [h1] at hg
    omega
  · right
    rw [h1, h2, h3, List.drop_left] at hg ⊢
    have hu : upTo 0x00 post < post.length := by simp only [List.length_append] at hg; omega
    have hs := upTo_split 0x00 post hu
    refine ⟨rfl, ?_, post.drop (upTo 0x00 post + 1), ?_⟩
    · simp only [List.length_append, List.length_take, List.length_cons, List.length_nil]; omega
    · simp only [List.append_assoc, List.cons_append, List.nil_append]
      rw [← hs]

theorem ignore_some {n : Int} (hn : 0 ≤ n) (h : BIn D p i) : SGone D (i.ignoreInt n) ∨ ∃ q : Bytes, (q.length : Int) = n ∧ SPos D (p ++ q) (i.ignoreInt n) := by
  unfold StrIn.ignoreInt
  rw [if_pos hn]
  rcases h with ⟨h1, h2⟩ | ⟨h1, h2, post, h3⟩
  · exact .inl ⟨h1, by dsimp only; omega⟩
  · by_cases hl : n.toNat ≤ post.length
    · refine .inr ⟨post.take n.toNat, by simp; omega, h1, by simp [h2, hl], post.drop n.toNat, by simp [h3]⟩
    · refine .inl ⟨h1, ?_⟩
      dsimp only
      rw [h2, h3, List.length_append]; omega

theorem read_gone {n : Nat} (h : SGone D i) : Yields (fun x => x.1 = []) (i.read n) := by
  intro x e
  unfold StrIn.read at e
  split at e
  · cases e
  cases e
  dsimp only
  rw [List.drop_eq_nil_of_le (by rw [h.1]; exact h.2), List.take_nil]

theorem pos_beyond {b : Byte} {x : Bytes} (h : SPos D (D ++ b :: x) i) : False := by
  obtain ⟨-, -, post, h⟩ := h
  have := congrArg List.length h
  simp only [List.length_append, List.length_cons] at this
  omega

theorem pos_at_byte {x : Bytes} (h : SPos D (p ++ x) i) : x.length ≤ D.length := by
  obtain ⟨-, -, post, h⟩ := h
  rw [h]; simp; omega

/-! ### the parser between the values -/

/-- The token that begins a container, and the one that ends it. -/
def startTok : BCont → Tok
  | .Map => .MapStart
  | _ => .ArrayStart
def endTok : BCont → Tok
  | .Map => .MapEnd
  | _ => .ArrayEnd

/-- A value has just been read, or a container opened. -/
structure Rest (cs : List BCont) (ls zs : List Int) (s : BsonP) : Prop where
  conts : s.conts = cs
  left : s.left = ls
  size : s.size = zs
  ready : s.skip = true ∨ (s.skip = false ∧ ∃ l ls', ls = l :: ls' ∧ s.next = bdue cs l)

/-- The same, with the next token known. -/
structure Settled (cs : List BCont) (l : Int) (ls zs : List Int) (i : StrIn) (s : BsonP) : Prop where
  inp : s.inp = i
  conts : s.conts = cs
  left : s.left = l :: ls
  size : s.size = zs
  skip : s.skip = false
  next : s.next = bdue cs l

theorem endToken_due {cs : List BCont} {l : Int} {ls : List Int} {s : BsonP} (h1 : s.conts = cs) (h2 : s.left = l :: ls) :
    Yields (fun t => (∃ k, t = some k ∧ bdue cs l = k) ∨ (t = none ∧ bdue cs l = .Key)) s.endToken := by
  unfold BsonP.endToken bdue
  rw [h2]
  dsimp only
  split
  · rw [h1]
    match cs with
    | [] => exact .ub
    | .Map :: _ => exact .ok (.inl ⟨_, rfl, rfl⟩)
    | .Array :: _ => exact .ok (.inl ⟨_, rfl, rfl⟩)
    | .Value :: _ => exact .ok (.inl ⟨_, rfl, rfl⟩)
  · exact .ok (.inr ⟨rfl, rfl⟩)

theorem settle_rest {cs : List BCont} {l : Int} {ls zs : List Int} {s : BsonP} (h : Rest cs (l :: ls) zs s) :
    Yields (Settled cs l ls zs s.inp) s.settle := by
  unfold BsonP.settle
  split
  · refine (endToken_due h.conts h.left).bind ?_
    rintro t (⟨k, rfl, hk⟩ | ⟨rfl, hk⟩)
    · exact .ok ⟨rfl, h.conts, h.left, h.size, rfl, hk.symm⟩
    · exact .ok ⟨rfl, h.conts, h.left, h.size, rfl, hk.symm⟩
  · next hs =>
    rcases h.ready with hr | ⟨hr, l', ls', e, hn⟩
    · exact absurd hr hs
    · cases e
      exact .ok ⟨rfl, h.conts, h.left, h.size, hr, hn⟩

/-- The value at `c` is due. -/
structure AtV (D : Bytes) (c : BPlace) (s : BsonP) : Prop where
  skip : s.skip = false
  left : s.left = c.left
  size : s.size = c.size
  inp : BIn D c.pre s.inp
  kind : (∃ m, m ≠ .Value ∧ c.ty = contType m ∧ s.next = startTok m ∧ s.conts = m :: c.conts ∧ s.type ≠ 0x0A) ∨
    (c.ty ≠ 0x03 ∧ c.ty ≠ 0x04 ∧ s.next = .Value ∧ s.conts = c.conts ∧ (c.conts ≠ [] ∧ c.left ≠ []) ∧ s.type = c.ty)

variable (g : BRules)

/-- Between the elements of the container at `c`. -/
def Inside (D : Bytes) (m : BCont) (c : BPlace) (s : BsonP) : Prop :=
  m ≠ .Value ∧ c.ty = contType m ∧ ∃ l z, Rest (m :: c.conts) (l :: c.left) (z :: c.size) s ∧
    (SGone D s.inp ∨ ∃ sz es, sz.length = 4 ∧ BContent g m es ∧ SPos D (c.pre ++ sz ++ es) s.inp ∧ l = leInt sz - 4 - es.length ∧ z = leInt sz)

/-- The value at `c` has been read. -/
def Done (D : Bytes) (c : BPlace) (s : BsonP) : Prop :=
  (c.conts = [] ∧ s.skip = false ∧ s.next = .DocEnd ∧ s.conts = [] ∧ ∃ q, g.Payload c.ty q ∧ SPos D (c.pre ++ q) s.inp) ∨
  (c.conts ≠ [] ∧ ∃ l ls l', c.left = l :: ls ∧ Rest c.conts (l' :: ls) c.size s ∧
    (SGone D s.inp ∨ ∃ q, g.Payload c.ty q ∧ SPos D (c.pre ++ q) s.inp ∧ l' = l - q.length))

/-- A scalar is current. -/
structure Scalar (D : Bytes) (c : BPlace) (s : BsonP) : Prop where
  ty : c.ty ≠ 0x03 ∧ c.ty ≠ 0x04
  skip : s.skip = true
  conts : s.conts = c.conts
  some : c.conts ≠ [] ∧ c.left ≠ []
  left : s.left = c.left
  size : s.size = c.size
  type : s.type = c.ty
  inp : BIn D c.pre s.inp

/-- The first token of the value at `c` has been given. -/
def Told (D : Bytes) (c : BPlace) (k : Tok) (s : BsonP) : Prop :=
  (k = .Value ∧ Scalar D c s) ∨ (∃ m, k = startTok m ∧ Inside g D m c s ∧ s.type ≠ 0x0A)

/-- A key of the object at `c` has been announced. -/
def KeyAt (D : Bytes) (c : BPlace) (s : BsonP) : Prop := ∃ e, AtV D e s ∧ ∀ s', Done g D e s' → Inside g D .Map c s'

variable {g} {S : Ty → Prop} {weak : Prop}

theorem readLE_full {n : Nat} (hn : 0 < n) (h : BIn D p i) : Yields (fun x => ∃ b : Bytes, b.length = n ∧ x.1 = leInt b ∧ SPos D (p ++ b) x.2) (readLE n i) := by
  unfold readLE
  refine (read_full hn h).bind ?_
  rintro ⟨got, good, i'⟩ ⟨hx1, hx⟩
  dsimp only at hx hx1 ⊢
  split
  · exact .ub
  · next hl => exact .ok ⟨got, by omega, rfl, hx (by omega)⟩

theorem use_left {n : Int} {s : BsonP} : Yields (fun s' => ∃ l ls, s.left = l :: ls ∧ s' = { s with left := (l - n) :: ls }) (s.use n) := by
  unfold BsonP.use
  split
  · exact .ub
  · next l ls e => exact .ok ⟨l, ls, e, rfl⟩

/-- The bytes of a container's end. -/
theorem readEnd_full {s : BsonP} (h : BIn D p s.inp) : Yields (fun s' => SPos D (p ++ [0x00]) s'.inp ∧
    ∃ l ls, s.left = l :: ls ∧ s' = { s with inp := s'.inp, left := (l - 1) :: ls }) s.readEnd := by
  unfold BsonP.readEnd
  refine (read_full (by decide) h).bind ?_
  rintro ⟨got, good, i'⟩ ⟨hx1, hx⟩
  dsimp only at hx hx1 ⊢
  split
  · exact .throwStd
  refine use_left.bind ?_
  rintro s' ⟨l, ls, e, rfl⟩
  split
  · exact .throwStd
  · next h0 =>
    match got with
    | [] => exact absurd h0 (by decide)
    | [b] =>
      have : b = 0x00 := by simpa using h0
      subst this
      exact .ok ⟨hx rfl, l, ls, e, rfl⟩
    | _ :: _ :: _ => simp at hx1

/-- Type byte and key of an element. -/
theorem readKey_some {s : BsonP} (h : BIn D p s.inp) : Yields (fun s' => ∃ k : Bytes, (0x00 : Byte) ∉ k ∧ s'.conts = s.conts ∧ s'.size = s.size ∧ s'.skip = s.skip ∧
    (∃ l ls, s.left = l :: ls ∧ s'.left = (l - (k.length + 2)) :: ls) ∧ (SGone D s'.inp ∨ SPos D (p ++ (s'.type :: k ++ [0x00])) s'.inp)) s.readKey := by
  unfold BsonP.readKey
  refine (read_some h).bind ?_
  rintro ⟨got, good, i'⟩ hx
  dsimp only at hx ⊢
  split
  · exact .throwStd
  next hg =>
  have hx := hx (by simpa using hg)
  have hx2 : SGone D i' ∨ SPos D (p ++ [got.headD s.type]) i' := by
    rcases hx with h | ⟨h1, h2⟩
    · exact .inl h
    · match got, h1 with
      | [b], _ => exact .inr h2
  have hy : Yields (fun x => x.2.1 = true → (0x00 : Byte) ∉ x.1 ∧ (SGone D x.2.2 ∨ SPos D (p ++ [got.headD s.type] ++ x.1 ++ [0x00]) x.2.2)) (i'.readTo 0x00) := by
    rcases hx2 with h | h
    · refine (readTo_some (p := D) (.inl h)).mono fun x hx hg => ⟨(hx hg).1, (hx hg).2.imp_right fun hz => ?_⟩
      rw [List.append_assoc] at hz
      generalize x.1 = key at hz
      cases key <;> exact absurd hz pos_beyond
    · exact readTo_some (.inr h)
  refine hy.bind ?_
  rintro ⟨key, good2, i2⟩ hz
  dsimp only at hz ⊢
  split
  · exact .throwStd
  next hg2 =>
  obtain ⟨hk, hz⟩ := hz (by simpa using hg2)
  refine use_left.mono ?_
  rintro s' ⟨l, ls, e, rfl⟩
  refine ⟨key, hk, rfl, rfl, rfl, ⟨l, ls, e, ?_⟩, ?_⟩
  · dsimp only; congr 1; omega
  · dsimp only
    exact hz.imp_right fun hz => by simpa using hz

/-- The first token of a value. -/
theorem handOut_at {c : BPlace} {s : BsonP} (h : AtV D c s) : Yields (fun x => Told (blax S weak) D c x.1 x.2) s.handOut := by
  rcases h.kind with ⟨m, hm, hc, hn, hcs, ht⟩ | ⟨h3, h4, hn, hcs, hne, ht⟩
  · have key : Yields (fun x => Told (blax S weak) D c x.1 x.2) (do
        let tok := s.next
        let s ← s.openLevel
        match s.left, s.conts with
        | l :: _, c :: _ =>
          if (l - 1) % (2 ^ 64 : Int) = 0 then return (tok, { s with next := if c = .Map then .MapEnd else .ArrayEnd })
          else return (tok, { s with next := .Key })
        | l :: _, [] => if (l - 1) % (2 ^ 64 : Int) = 0 then .ub else return (tok, { s with next := .Key })
        | [], _ => .ub : Res (Tok × BsonP)) := by
      dsimp only
      unfold BsonP.openLevel
      refine Yields.bind (P := fun s' : BsonP => ∃ sz : Bytes, sz.length = 4 ∧ SPos D (c.pre ++ sz) s'.inp ∧
        s' = { s with inp := s'.inp, size := leInt sz :: s.size, left := (leInt sz - 4) :: s.left }) ?_ ?_
      · refine (readLE_full (by decide) h.inp).bind ?_
        rintro ⟨n, i'⟩ ⟨b, hb, hv, hp⟩
        dsimp only at hv hp ⊢
        subst hv
        exact .ok ⟨b, hb, hp, rfl⟩
      · rintro s' ⟨sz, hz, hp, e⟩
        have e1 : s'.left = (leInt sz - 4) :: s.left := by rw [e]
        have e2 : s'.conts = m :: c.conts := by rw [e]; exact hcs
        have e3 : s'.size = leInt sz :: s.size := by rw [e]
        have e4 : s'.skip = false := by rw [e]; exact h.skip
        have e5 : s'.type = s.type := by rw [e]
        rw [e1, e2]
        have fin : ∀ t, t = bdue (m :: c.conts) (leInt sz - 4) → Told (blax S weak) D c s.next { s' with conts := m :: c.conts, left := (leInt sz - 4) :: s.left, next := t } := by
          intro t ht2
          refine .inr ⟨m, hn, ⟨hm, hc, leInt sz - 4, leInt sz, ⟨rfl, by rw [← h.left], by rw [← h.size]; exact e3, .inr ⟨e4, _, _, rfl, ht2⟩⟩,
            .inr ⟨sz, [], hz, ?_, by simpa using hp, by simp, rfl⟩⟩, by rw [← e5] at ht; exact ht⟩
          cases m
          case Map => exact .none
          all_goals exact ⟨0, .none⟩
        dsimp only
        split
        · next h0 =>
          refine .ok (fin _ ?_)
          unfold bdue
          rw [if_pos h0]
          cases m <;> first | rfl | exact absurd rfl hm
        · next h0 =>
          refine .ok (fin _ ?_)
          unfold bdue
          rw [if_neg h0]
    unfold BsonP.handOut
    cases m
    case Value => exact absurd rfl hm
    all_goals
      simp only [startTok] at hn
      rw [hn] at key ⊢
      exact key
  · unfold BsonP.handOut
    rw [hn]
    exact .ok (.inl ⟨rfl, ⟨h3, h4⟩, rfl, hcs, hne, h.left, h.size, ht, h.inp⟩)

/-- The end of a container. -/
theorem handOut_end (hD : D.length < 2 ^ 63) {m : BCont} {c : BPlace} {l z : Int} {s : BsonP} {i : StrIn} (hm : m ≠ .Value) (hc : c.ty = contType m)
    (h : Settled (m :: c.conts) l c.left (z :: c.size) i s) (h0 : (l - 1) % (2 ^ 64 : Int) = 0)
    (hi : SGone D i ∨ ∃ sz es, sz.length = 4 ∧ BContent (blax S weak) m es ∧ SPos D (c.pre ++ sz ++ es) i ∧ l = leInt sz - 4 - es.length ∧ z = leInt sz) :
    Yields (fun x => x.1 = endTok m ∧ Done (blax S weak) D c x.2) s.handOut := by
  have hn : s.next = endTok m := by
    rw [h.next]
    unfold bdue
    rw [if_pos h0]
    cases m <;> first | rfl | exact absurd rfl hm
  have key : Yields (fun x => x.1 = endTok m ∧ Done (blax S weak) D c x.2) (do
      let tok := s.next
      let s ← s.readEnd
      match s.conts, s.left, s.size with
      | [_], _ :: ls, _ :: zs => return (tok, { s with conts := [], left := ls, size := zs, next := .DocEnd })
      | _ :: c :: cs, _ :: l :: ls, z :: zs => do
        let s := { s with conts := c :: cs, left := (l - z) :: ls, size := zs }
        match ← s.endToken with
        | some t => return (tok, { s with next := t })
        | none => return (tok, { s with next := .Key })
      | _, _, _ => .ub : Res (Tok × BsonP)) := by
    dsimp only
    refine Yields.bind (P := fun s' : BsonP => ∃ q, (blax S weak).Payload c.ty q ∧ SPos D (c.pre ++ q) s'.inp ∧ (q.length : Int) = z ∧
      s' = { s with inp := s'.inp, left := (l - 1) :: c.left }) ?_ ?_
    · rcases hi with hg | ⟨sz, es, hz, hes, hp, hl, hzz⟩
      · refine (readEnd_full (p := D) (.inl (by rw [h.inp]; exact hg))).mono ?_
        rintro s' ⟨hp, -⟩
        exact absurd hp pos_beyond
      · refine (readEnd_full (.inr (by rw [h.inp]; exact hp))).mono ?_
        rintro s' ⟨hp', l', ls', e1, e2⟩
        rw [h.left] at e1
        cases e1
        have hb := BsonP.leInt_bound4 hz
        have hle : es.length ≤ D.length := pos_at_byte hp
        have hl5 : leInt sz = 5 + es.length := by omega
        refine ⟨sz ++ es ++ [0x00], ?_, by simpa using hp', ?_, e2⟩
        · rw [hc]; exact content_close hm hes hz hl5
        · simp only [List.length_append, hz, List.length_cons, List.length_nil]; omega
    · rintro s' ⟨q, hq, hp, hlen, e⟩
      have e1 : s'.conts = m :: c.conts := by rw [e]; exact h.conts
      have e2 : s'.left = (l - 1) :: c.left := by rw [e]
      have e3 : s'.size = z :: c.size := by rw [e]; exact h.size
      have e4 : s'.skip = false := by rw [e]; exact h.skip
      rw [e1, e2, e3]
      match hcs : c.conts, hcl : c.left with
      | [], ls => exact .ok ⟨hn, .inl ⟨hcs, e4, rfl, rfl, q, hq, hp⟩⟩
      | _ :: _, [] => exact .ub
      | c1 :: cs, l1 :: ls =>
        dsimp only
        refine (endToken_due (cs := c1 :: cs) (l := l1 - z) (ls := ls) rfl rfl).bind ?_
        have fin : ∀ t, t = bdue (c1 :: cs) (l1 - z) → Done (blax S weak) D c { s' with conts := c1 :: cs, left := (l1 - z) :: ls, size := c.size, next := t } := by
          intro t ht
          refine .inr ⟨by rw [hcs]; simp, l1, ls, l1 - z, hcl, ⟨hcs.symm, rfl, rfl, .inr ⟨e4, _, _, rfl, by rw [hcs]; exact ht⟩⟩, .inr ⟨q, hq, hp, by rw [hlen]⟩⟩
        rintro t (⟨k, rfl, hk⟩ | ⟨rfl, hk⟩)
        · exact .ok ⟨hn, fin _ hk.symm⟩
        · exact .ok ⟨hn, fin _ hk.symm⟩
  unfold BsonP.handOut
  cases m
  case Value => exact absurd rfl hm
  all_goals
    simp only [endTok] at hn
    rw [hn] at key ⊢
    exact key

/-- The next element of a container begins. -/
theorem key_at {cs : List BCont} {l : Int} {ls zs : List Int} {s : BsonP} (hcs : cs ≠ []) (h1 : s.conts = cs) (h2 : s.left = l :: ls) (h3 : s.size = zs) (h4 : s.skip = false)
    (h : BIn D p s.inp) : Yields (fun s' => s'.conts = cs ∧ ∃ k : Bytes, (0x00 : Byte) ∉ k ∧ ∃ pre, (pre = p ++ (s'.type :: k ++ [0x00]) ∨ pre = D ++ [0x00]) ∧
      AtV D ⟨pre, s'.type, cs, (l - (k.length + 2)) :: ls, zs⟩
        (if s'.type = 0x03 then { s' with conts := .Map :: s'.conts, next := .MapStart }
        else if s'.type = 0x04 then { s' with conts := .Array :: s'.conts, next := .ArrayStart }
        else { s' with next := .Value })) s.readKey := by
  refine (readKey_some h).mono ?_
  rintro s' ⟨k, hk, e1, e2, e3, ⟨l', ls', e4, e5⟩, hp⟩
  rw [h2] at e4
  cases e4
  have hpre : ∃ pre, (pre = p ++ (s'.type :: k ++ [0x00]) ∨ pre = D ++ [0x00]) ∧ BIn D pre s'.inp := by
    rcases hp with hp | hp
    · exact ⟨_, .inr rfl, .inl hp⟩
    · exact ⟨_, .inl rfl, .inr hp⟩
  obtain ⟨pre, hpre, hb⟩ := hpre
  refine ⟨e1.trans h1, k, hk, pre, hpre, ?_⟩
  split
  · next h3' => exact ⟨e3.trans h4, e5, e2.trans h3, hb, .inl ⟨.Map, by simp, h3', rfl, by dsimp only; rw [e1, h1], by dsimp only; rw [h3']; decide⟩⟩
  · split
    · next h4' => exact ⟨e3.trans h4, e5, e2.trans h3, hb, .inl ⟨.Array, by simp, h4', rfl, by dsimp only; rw [e1, h1], by dsimp only; rw [h4']; decide⟩⟩
    · next h3' h4' => exact ⟨e3.trans h4, e5, e2.trans h3, hb, .inr ⟨h3', h4', rfl, e1.trans h1, ⟨hcs, by simp⟩, rfl⟩⟩

/-- The next element of a container, or its end. -/
theorem inside_next (hD : D.length < 2 ^ 63) {m : BCont} {c : BPlace} {s : BsonP} (h : Inside (blax S weak) D m c s) :
    Yields (fun x => (x.1 = endTok m ∧ Done (blax S weak) D c x.2) ∨ (m = .Map ∧ x.1 = .Key ∧ KeyAt (blax S weak) D c x.2) ∨
      (m ≠ .Map ∧ ∃ e, Told (blax S weak) D e x.1 x.2 ∧ ∀ s', Done (blax S weak) D e s' → Inside (blax S weak) D m c s')) s.getNextToken := by
  obtain ⟨hm, hc, l, z, hr, hi⟩ := h
  unfold BsonP.getNextToken
  refine (settle_rest hr).bind ?_
  intro s1 h1
  dsimp only
  split
  · next hk =>
    have hi2 : ∃ p, BIn D p s1.inp ∧ (p = D ∨ ∃ sz es, sz.length = 4 ∧ BContent (blax S weak) m es ∧ p = c.pre ++ sz ++ es ∧ l = leInt sz - 4 - es.length ∧ z = leInt sz) := by
      rw [h1.inp]
      rcases hi with hi | ⟨sz, es, a1, a2, a3, a4, a5⟩
      · exact ⟨D, .inl hi, .inl rfl⟩
      · exact ⟨_, .inr a3, .inr ⟨sz, es, a1, a2, rfl, a4, a5⟩⟩
    obtain ⟨p, hp, hi2⟩ := hi2
    refine (key_at (by simp) h1.conts h1.left h1.size h1.skip hp).bind ?_
    rintro s2 ⟨hcs, k, hk, pre, hpre, hat⟩
    have back : ∀ s', Done (blax S weak) D ⟨pre, s2.type, m :: c.conts, (l - (k.length + 2)) :: c.left, z :: c.size⟩ s' → Inside (blax S weak) D m c s' := by
      rintro s' (⟨h, -⟩ | ⟨-, l1, ls1, l2, e, hr2, hi3⟩)
      · cases h
      cases e
      refine ⟨hm, hc, l2, z, hr2, ?_⟩
      rcases hi3 with hg | ⟨q, hq, hp3, hl2⟩
      · exact .inl hg
      · dsimp only at hp3 hq
        rcases hpre with rfl | rfl
        · rcases hi2 with rfl | ⟨sz, es, a1, a2, rfl, a4, a5⟩
          · exfalso
            simp only [List.append_assoc, List.cons_append] at hp3
            exact pos_beyond hp3
          · refine .inr ⟨sz, es ++ (s2.type :: k ++ [0x00] ++ q), a1, content_more a2 hk hq, by simpa using hp3, ?_, a5⟩
            simp only [List.length_append, List.length_cons, List.length_nil]
            omega
        · exfalso
          simp only [List.append_assoc, List.cons_append] at hp3
          exact pos_beyond hp3
    rw [hcs]
    dsimp only
    split
    · next hmm =>
      subst hmm
      rw [hcs] at hat
      exact .ok (.inr (.inl ⟨rfl, rfl, _, hat, back⟩))
    · next hmm =>
      rw [hcs] at hat
      exact (handOut_at hat).mono fun x hx => .inr (.inr ⟨hmm, _, hx, back⟩)
  · next hk =>
    have h0 : (l - 1) % (2 ^ 64 : Int) = 0 := by
      rw [h1.next] at hk
      unfold bdue at hk
      split at hk
      · assumption
      · exact absurd rfl hk
    exact (handOut_end hD hm hc h1 h0 (hi.imp_right fun h => h)).mono fun x hx => .inl hx

/-! ### scalars -/

/-- A scalar has been read. -/
theorem scalar_done {c : BPlace} {s s' : BsonP} {n : Nat} {l : Int} {ls : List Int} (h : Scalar D c s) (e1 : s'.skip = true) (e2 : s'.conts = s.conts) (e3 : s'.size = s.size)
    (e4 : s.left = l :: ls) (e5 : s'.left = (l - n) :: ls)
    (hp : SGone D s'.inp ∨ ∃ q : Bytes, q.length = n ∧ blaxScalar S weak c.ty q ∧ SPos D (c.pre ++ q) s'.inp) : Done (blax S weak) D c s' := by
  refine .inr ⟨h.some.1, l, ls, l - n, by rw [← h.left, e4], ⟨e2.trans h.conts, e5, e3.trans h.size, .inl e1⟩, ?_⟩
  rcases hp with hp | ⟨q, hq, hs, hp⟩
  · exact .inl hp
  · exact .inr ⟨q, .scalar hs, hp, by rw [hq]⟩

theorem readInt_done {c : BPlace} {s : BsonP} {n : Nat} (hn : 0 < n) (h : Scalar D c s) (hs : ∀ q : Bytes, q.length = n → blaxScalar S weak c.ty q) :
    Yields (fun x => Done (blax S weak) D c x.2) (s.readInt n) := by
  unfold BsonP.readInt
  refine use_left.bind ?_
  rintro s1 ⟨l, ls, e, rfl⟩
  refine (readLE_full hn (p := c.pre) h.inp).bind ?_
  rintro ⟨v, i'⟩ ⟨b, hb, -, hp⟩
  exact .ok (scalar_done h h.skip rfl rfl e rfl (.inr ⟨b, hb, hs b hb, hp⟩))

theorem getInt_done {c : BPlace} {s : BsonP} (k : IntKind) (hS : S (.int k)) (h : Scalar D c s) : Yields (fun x => Done (blax S weak) D c x.2) (s.getInt k) := by
  unfold BsonP.getInt
  split
  · next ht => exact (readInt_done (by decide) h fun q hq => .inl ⟨.inl ⟨k, hS⟩, .inl ⟨by rw [← h.type, ht], hq⟩⟩).bind fun x hx => .ok hx
  · split
    · next ht => exact (readInt_done (by decide) h fun q hq => .inl ⟨.inl ⟨k, hS⟩, .inr ⟨by rw [← h.type, ht], hq⟩⟩).bind fun x hx => .ok hx
    · exact .throwStd

theorem readDouble_done {c : BPlace} {s : BsonP} (f : FKind) (hS : S (.flt f)) (ht : s.type = 0x01) (h : Scalar D c s) : Yields (fun x => Done (blax S weak) D c x.2) s.readDouble := by
  unfold BsonP.readDouble
  refine (read_full (by decide) h.inp).bind ?_
  rintro ⟨got, good, i'⟩ ⟨hx1, hx⟩
  dsimp only at hx1 hx ⊢
  split
  · exact .throwStd
  refine use_left.bind ?_
  rintro s1 ⟨l, ls, e, rfl⟩
  split
  · exact .ub
  · have hl : got.length = 8 := by omega
    exact .ok (scalar_done (n := 8) h h.skip rfl rfl e rfl (.inr ⟨got, hl, .inr (.inl ⟨⟨f, hS⟩, by rw [← h.type, ht], hl⟩), hx hl⟩))

theorem getFlt_done {c : BPlace} {s : BsonP} (f : FKind) (hS : S (.flt f)) (h : Scalar D c s) : Yields (fun x => Done (blax S weak) D c x.2) (s.getFlt f) := by
  unfold BsonP.getFlt
  split
  · next ht => exact (readInt_done (by decide) h fun q hq => .inl ⟨.inr ⟨f, hS⟩, .inl ⟨by rw [← h.type, ht], hq⟩⟩).bind fun x hx => .ok hx
  · split
    · next ht => exact (readInt_done (by decide) h fun q hq => .inl ⟨.inr ⟨f, hS⟩, .inr ⟨by rw [← h.type, ht], hq⟩⟩).bind fun x hx => .ok hx
    · split
      · next ht => exact (readDouble_done f hS ht h).bind fun x hx => .ok hx
      · exact .throwStd

theorem getBool_done {c : BPlace} {s : BsonP} (hS : S .bool) (h : Scalar D c s) : Yields (fun x => Done (blax S weak) D c x.2) s.getBool := by
  unfold BsonP.getBool
  split
  · exact .throwStd
  next ht =>
  have ht : s.type = 0x08 := by simpa using ht
  unfold BsonP.readBool
  refine (read_full (by decide) h.inp).bind ?_
  rintro ⟨got, good, i'⟩ ⟨hx1, hx⟩
  dsimp only at hx1 hx ⊢
  split
  · exact .throwStd
  refine use_left.bind ?_
  rintro s1 ⟨l, ls, e, rfl⟩
  split
  · exact .ok (scalar_done (n := 1) h h.skip rfl rfl e rfl (.inr ⟨[0x00], rfl, .inr (.inr (.inl ⟨hS, by rw [← h.type, ht], .inl rfl⟩)), hx rfl⟩))
  · exact .ok (scalar_done (n := 1) h h.skip rfl rfl e rfl (.inr ⟨[0x01], rfl, .inr (.inr (.inl ⟨hS, by rw [← h.type, ht], .inr rfl⟩)), hx rfl⟩))
  · exact .ub

theorem getStr_done {c : BPlace} {s : BsonP} (h : Scalar D c s) : Yields (fun x => Done (blax S weak) D c x.2) s.getStr := by
  unfold BsonP.getStr
  split
  · exact .throwStd
  next ht =>
  have ht : s.type = 0x02 := by simpa using ht
  unfold BsonP.readString
  refine (readLE_full (by decide) h.inp).bind ?_
  rintro ⟨n, i'⟩ ⟨b, hb, hn, hp⟩
  dsimp only at hn hp ⊢
  refine use_left.bind ?_
  rintro s1 ⟨l, ls, e, rfl⟩
  split
  · split
    · exact .throwStd
    · exact .ub
  next hn0 =>
  refine (read_some (n := n.toNat) (p := c.pre ++ b) (.inr hp)).bind ?_
  rintro ⟨got, good, i2⟩ hx
  dsimp only at hx ⊢
  split
  · exact .throwStd
  next hg =>
  have hx := hx (by simpa using hg)
  refine use_left.bind ?_
  rintro s2 ⟨l2, ls2, e2, rfl⟩
  cases e2
  split
  · exact .throwStd
  next hn1 =>
  have hn1 : 1 ≤ n := by simp only [List.length_nil] at hn1; omega
  refine .ok (scalar_done (n := 4 + n.toNat) h h.skip rfl rfl e ?_ ?_)
  · dsimp only; congr 1; omega
  · dsimp only
    rcases hx with hx | ⟨hl, hx⟩
    · exact .inl hx
    · refine .inr ⟨b ++ got, by simp [hb, hl], .inr (.inr (.inr (.inl ⟨by rw [← h.type, ht], got, ?_, ?_, ?_⟩))), by simpa using hx⟩
      · rintro rfl; simp at hl; omega
      · have := BsonP.leInt_bound4 hb; omega
      · rw [hl, show ((n.toNat : Nat) : Int) = leInt b by omega, le_leInt hb]

theorem null_done {c : BPlace} {s : BsonP} (hS : (∃ e, S (.uptr e)) ∨ ∃ b, S (.pptr b)) (hn : s.isValueNull = true) (h : Scalar D c s) :
    Yields (Done (blax S weak) D c) s.ignoreDataValue := by
  have ht : s.type = 0x0A := by simpa [BsonP.isValueNull] using hn
  unfold BsonP.ignoreDataValue
  rw [h.skip, ht]
  have hl : ∃ l ls, s.left = l :: ls := by
    have := h.some.2
    rw [← h.left] at this
    match s.left, this with
    | l :: ls, _ => exact ⟨l, ls, rfl⟩
  obtain ⟨l, ls, hl⟩ := hl
  have hd : Done (blax S weak) D c s := by
    refine scalar_done (n := 0) h h.skip rfl rfl hl (by rw [hl]; simp) ?_
    rcases h.inp with hi | hi
    · exact .inl hi
    · exact .inr ⟨[], rfl, .inr (.inr (.inr (.inr (.inl ⟨hS, by rw [← h.type, ht], rfl⟩)))), by simpa using hi⟩
  exact .ok hd

theorem ignoreBytes_done {c : BPlace} {s : BsonP} {n : Nat} (hw : weak) (h : Scalar D c s) (hs : ∀ q : Bytes, q.length = n → BSkipped c.ty q) :
    Yields (Done (blax S weak) D c) (s.ignoreBytes n) := by
  unfold BsonP.ignoreBytes
  refine use_left.mono ?_
  rintro s' ⟨l, ls, e, rfl⟩
  refine scalar_done h h.skip rfl rfl e rfl ?_
  rcases ignore_some (n := n) (by omega) h.inp with hi | ⟨q, hq, hp⟩
  · exact .inl hi
  · exact .inr ⟨q, by omega, .inr (.inr (.inr (.inr (.inr ⟨hw, hs q (by omega)⟩)))), hp⟩

theorem ignoreSized_done {c : BPlace} {s : BsonP} {n : Nat} (hw : weak) (ha : ∀ b ∈ D, b.toNat < 128) (h : Scalar D c s)
    (hs : ∀ b q : Bytes, b.length = 4 → 0 ≤ leInt b → (q.length : Int) = leInt b + n → BSkipped c.ty (b ++ q)) :
    Yields (Done (blax S weak) D c) (s.ignoreSized n) := by
  unfold BsonP.ignoreSized
  refine (readLE_full (by decide) h.inp).bind ?_
  rintro ⟨v, i'⟩ ⟨b, hb, hv, hp⟩
  dsimp only at hv hp ⊢
  have hv0 : 0 ≤ v := by
    rw [hv]
    refine leInt_nonneg _ fun x hx => ha x ?_
    obtain ⟨-, -, post, hd⟩ := hp
    rw [hd]; simp [hx]
  split
  · exact .ub
  refine use_left.mono ?_
  rintro s' ⟨l, ls, e, rfl⟩
  refine scalar_done (n := (v + 4 + n).toNat) h h.skip rfl rfl e (by dsimp only; congr 1; omega) ?_
  rcases ignore_some (n := v + n) (by omega) (.inr hp) with hi | ⟨q, hq, hp2⟩
  · exact .inl hi
  · exact .inr ⟨b ++ q, by simp [hb]; omega, .inr (.inr (.inr (.inr (.inr ⟨hw, hs b q hb (by omega) (by omega)⟩)))), by simpa using hp2⟩

theorem skip_done {c : BPlace} {s : BsonP} (hw : weak) (ha : ∀ b ∈ D, b.toNat < 128) (h : Scalar D c s) : Yields (Done (blax S weak) D c) s.ignoreDataValue := by
  unfold BsonP.ignoreDataValue
  rw [h.skip, h.type]
  rw [if_neg (by simp)]
  have hc : ∀ {b : Bytes}, b.length = 4 → ∀ n : Nat, leInt b = n → n < 2 ^ 31 ∧ b = le 4 n := fun {b} hb n hn => ⟨by have := BsonP.leInt_bound4 hb; omega, by rw [← hn, le_leInt hb]⟩
  repeat' split
  · next ht => exact ignoreBytes_done (n := 8) hw h fun q hq => .inl ⟨ht, hq⟩
  · next ht => exact ignoreBytes_done (n := 16) hw h fun q hq => .inr (.inl ⟨ht, hq⟩)
  · next ht => exact ignoreBytes_done (n := 4) hw h fun q hq => .inr (.inr (.inl ⟨ht, hq⟩))
  · next ht => exact ignoreBytes_done (n := 8) hw h fun q hq => .inr (.inr (.inr (.inl ⟨ht, hq⟩)))
  · next ht => exact ignoreBytes_done (n := 12) hw h fun q hq => .inr (.inr (.inr (.inr (.inl ⟨ht, hq⟩))))
  · next ht => exact ignoreBytes_done (n := 1) hw h fun q hq => .inr (.inr (.inr (.inr (.inr (.inl ⟨ht, hq⟩)))))
  · next ht => exact ignoreBytes_done (n := 8) hw h fun q hq => .inr (.inr (.inr (.inr (.inr (.inr (.inl ⟨ht, hq⟩))))))
  · next ht => exact ignoreBytes_done (n := 8) hw h fun q hq => .inr (.inr (.inr (.inr (.inr (.inr (.inr (.inl ⟨ht, hq⟩)))))))
  · next ht =>
    have hl : ∃ l ls, s.left = l :: ls := by
      have := h.some.2
      rw [← h.left] at this
      match s.left, this with
      | l :: ls, _ => exact ⟨l, ls, rfl⟩
    obtain ⟨l, ls, hl⟩ := hl
    refine .ok (scalar_done (n := 0) h h.skip rfl rfl hl (by rw [hl]; simp) ?_)
    rcases h.inp with hi | hi
    · exact .inl hi
    · exact .inr ⟨[], rfl, .inr (.inr (.inr (.inr (.inr ⟨hw, .inr (.inr (.inr (.inr (.inr (.inr (.inr (.inr (.inl ⟨ht, rfl⟩))))))))⟩)))), by simpa using hi⟩
  · next ht =>
    refine ignoreSized_done (n := 0) hw ha h fun b q hb h0 hq => ?_
    obtain ⟨h1, h2⟩ := hc hb q.length (by omega)
    exact .inr (.inr (.inr (.inr (.inr (.inr (.inr (.inr (.inr (.inl ⟨ht, q, h1, by rw [← h2]⟩)))))))))
  · next ht =>
    refine ignoreSized_done (n := 1) hw ha h fun b q hb h0 hq => ?_
    match q, hq with
    | [], hq => simp at hq; omega
    | x :: q, hq =>
      obtain ⟨h1, h2⟩ := hc hb q.length (by simp at hq; omega)
      exact .inr (.inr (.inr (.inr (.inr (.inr (.inr (.inr (.inr (.inr ⟨ht, x, q, h1, by rw [← h2]⟩)))))))))
  · exact .throwStd

/-! ### the places along an import -/

/-- The only element of a document that holds a scalar; `P` is in front of the document. -/
def Wrapped (D P : Bytes) (e : BPlace) : Prop :=
  e.conts = [.Value, .Value] ∧ ∃ sz k : Bytes, sz.length = 4 ∧ (0x00 : Byte) ∉ k ∧ (e.pre = P ++ sz ++ (e.ty :: k ++ [0x00]) ∨ e.pre = D ++ [0x00]) ∧
    e.left = [leInt sz - 4 - (k.length + 2)]

/-- A scalar is to be read from its document. -/
def AtWrap (D P : Bytes) (s : BsonP) : Prop :=
  s.skip = false ∧ s.next = .Key ∧ s.conts = [.Value, .Value] ∧ ∃ sz : Bytes, sz.length = 4 ∧ SPos D (P ++ sz) s.inp ∧ s.left = [leInt sz - 4]

theorem wrap_next {P : Bytes} {s : BsonP} (h : AtWrap D P s) : Yields (fun x => ∃ e, Wrapped D P e ∧ Told (blax S weak) D e x.1 x.2) s.getNextToken := by
  obtain ⟨h1, h2, h3, sz, hz, hp, h4⟩ := h
  unfold BsonP.getNextToken BsonP.settle
  rw [h1]
  simp only [Bool.false_eq_true, if_false, Res.ok_bind]
  rw [if_pos h2]
  refine (key_at (by simp) h3 h4 rfl h1 (.inr hp)).bind ?_
  rintro s2 ⟨hcs, k, hk, pre, hpre, hat⟩
  rw [hcs] at hat ⊢
  dsimp only
  rw [if_neg (by simp)]
  exact (handOut_at hat).mono fun x hx => ⟨_, ⟨rfl, sz, k, hz, hk, hpre, rfl⟩, hx⟩

variable (D S weak) in
/-- The BSON parser keeps to the grammar. A place is one of a set of places: the key in front of a scalar that is a document by itself is not known
before it is read. -/
theorem bsonTrack (P : Bytes) (hD : D.length < 2 ^ 63) (ha : weak → ∀ b ∈ D, b.toNat < 128) :
    Track (C := BPlace → Prop) BsonP.ops S weak (fun _ => False) (fun c s => (∃ e, c e ∧ AtV D e s) ∨ ((∀ e, Wrapped D P e → c e) ∧ AtWrap D P s))
      (fun c k s => ∃ e, c e ∧ Told (blax S weak) D e k s)
      (fun c s => ∃ e, c e ∧ Inside (blax S weak) D .Array e s) (fun c s => ∃ e, c e ∧ Inside (blax S weak) D .Map e s)
      (fun c s => ∃ e, c e ∧ KeyAt (blax S weak) D e s) (fun c s => ∃ e, c e ∧ Done (blax S weak) D e s) := by
  have toldV : ∀ {c : BPlace → Prop} {s : BsonP}, (∃ e, c e ∧ Told (blax S weak) D e .Value s) → ∃ e, c e ∧ Scalar D e s := by
    rintro c s ⟨e, he, ⟨-, h⟩ | ⟨m, h, -⟩⟩
    · exact ⟨e, he, h⟩
    · cases m <;> cases h
  refine ⟨fun _ h => h.elim, fun _ h => h.elim, fun _ _ h => h.elim, fun _ _ h => h.elim, fun _ h => h.elim, fun _ h => h.elim, fun _ h => h.elim,
    ?_, ⟨fun _ => False, fun s ⟨e, h, _⟩ => h⟩, ?_, ?_, ?_, ?_, ?_, ?_, ?_, ?_, ?_, ?_, ?_, ?_, ?_⟩
  · rintro c s (⟨e, he, h⟩ | ⟨hc, h⟩)
    · show Yields _ s.getNextToken
      unfold BsonP.getNextToken BsonP.settle
      rw [h.skip]
      simp only [Bool.false_eq_true, if_false, Res.ok_bind]
      rw [if_neg]
      · exact (handOut_at h).mono fun x hx => .inr ⟨e, he, hx⟩
      · rcases h.kind with ⟨m, -, -, hn, -⟩ | ⟨-, -, hn, -⟩
        · rw [hn]; cases m <;> simp [startTok]
        · rw [hn]; simp
    · exact (wrap_next h).mono fun x ⟨e, he, hx⟩ => .inr ⟨e, hc e he, hx⟩
  · rintro c s ⟨e, -, ⟨h, -⟩ | ⟨m, h, -⟩⟩
    · cases h
    · cases m <;> cases h
  · rintro c s ⟨e, he, ⟨h, -⟩ | ⟨m, h, hi, -⟩⟩
    · cases h
    · cases m
      case Map => exact ⟨e, he, hi⟩
      all_goals cases h
  · rintro c s ⟨e, he, ⟨h, -⟩ | ⟨m, h, hi, -⟩⟩
    · cases h
    · cases m
      case Array => exact ⟨e, he, hi⟩
      case Map => cases h
      case Value => exact absurd rfl hi.1
  · rintro c k s ⟨e, he, ⟨-, h⟩ | ⟨m, -, -, h⟩⟩ hn hS
    · exact (null_done hS hn h).mono fun x hx => .inr ⟨e, he, hx⟩
    · exact absurd (by simpa [BsonP.ops, BsonP.isValueNull] using hn) h
  · intro c k s h hS
    obtain ⟨e, he, h⟩ := toldV h
    exact (getInt_done k hS h).mono fun x hx => .inr ⟨e, he, hx⟩
  · intro c f s h hS
    obtain ⟨e, he, h⟩ := toldV h
    exact (getFlt_done f hS h).mono fun x hx => .inr ⟨e, he, hx⟩
  · intro c s h hS
    obtain ⟨e, he, h⟩ := toldV h
    exact (getBool_done hS h).mono fun x hx => .inr ⟨e, he, hx⟩
  · intro c s h
    obtain ⟨e, he, h⟩ := toldV h
    exact (getStr_done h).mono fun x hx => .inr ⟨e, he, hx⟩
  · rintro c s ⟨e, he, h⟩
    refine (inside_next hD h).mono ?_
    rintro ⟨k, s'⟩ (⟨h1, h2⟩ | ⟨h1, -⟩ | ⟨-, e', h1, h2⟩)
    · exact .inr (.inl ⟨h1, e, he, h2⟩)
    · cases h1
    · refine .inr (.inr ⟨?_, fun x => x = e', ⟨e', rfl, h1⟩, ?_⟩)
      · dsimp only at h1 ⊢
        rintro rfl
        rcases h1 with ⟨h, -⟩ | ⟨m, h, -⟩
        · cases h
        · cases m <;> cases h
      · rintro s2 ⟨_, rfl, h3⟩
        exact .inr ⟨e, he, h2 s2 h3⟩
  · rintro c s ⟨e, he, h⟩
    refine (inside_next hD h).mono ?_
    rintro ⟨k, s'⟩ (⟨h1, h2⟩ | ⟨-, h1, h2⟩ | ⟨h1, -⟩)
    · exact .inr (.inl ⟨h1, e, he, h2⟩)
    · exact .inr (.inr ⟨h1, e, he, h2⟩)
    · exact absurd rfl h1
  · rintro c s ⟨e, he, e', h1, h2⟩
    refine .ok (.inr ⟨fun x => x = e', .inl ⟨e', rfl, h1⟩, ?_⟩)
    rintro s2 ⟨_, rfl, h3⟩
    exact .inr ⟨e, he, h2 s2 h3⟩
  · intro hw c s h
    obtain ⟨e, he, h⟩ := toldV h
    exact (skip_done hw (ha hw) h).mono fun x hx => .inr ⟨e, he, hx⟩
  · rintro hw c s ⟨e, he, e', h1, h2⟩
    have e1 : s.ignoreDataValue = .ok s := by
      unfold BsonP.ignoreDataValue
      rw [if_pos h1.skip]
    show Yields _ s.ignoreDataValue
    rw [e1]
    refine .ok (.inr ⟨fun x => x = e', .inl ⟨e', rfl, h1⟩, ?_⟩)
    rintro s2 ⟨_, rfl, h3⟩
    exact .inr ⟨e, he, h2 s2 h3⟩

/-! ### the import -/

theorem occurs_closed (env : Env) (ty : Ty) : Closed env (Occurs env ty) :=
  ⟨fun _ _ => .seq, fun _ _ => .arr, fun _ => .smap, fun _ => .mmap, fun _ => .umap, fun _ => .opt, fun _ => .uptr,
    fun _ _ _ => .pptr, fun _ _ _ _ h1 h2 h3 => .tuple h1 h2 (List.mem_of_getElem? h3), fun _ _ _ => .alt, fun _ _ _ _ => .member⟩

/-- The end of a document that is an object or an array. -/
theorem top_end {m : BCont} {P : Bytes} {s : BsonP} (h : Done (blax S weak) D ⟨P, contType m, [], [], []⟩ s) :
    Yields (fun x => ∃ u, (blax S weak).Payload (contType m) u ∧ SPos D (P ++ u) x.2.inp) s.getNextToken := by
  rcases h with ⟨-, h1, h2, h3, q, hq, hp⟩ | ⟨h, -⟩
  · unfold BsonP.getNextToken BsonP.settle
    rw [h1]
    simp only [Bool.false_eq_true, if_false, Res.ok_bind]
    rw [if_neg (by rw [h2]; simp)]
    unfold BsonP.handOut
    rw [h2, h3]
    simp only [List.head?_nil, reduceCtorEq, if_false, Res.ok_bind]
    exact .ok ⟨q, hq, hp⟩
  · exact absurd rfl h

/-- The end of a document that holds a scalar. -/
theorem wrap_end (hD : D.length < 2 ^ 63) {P : Bytes} {e : BPlace} {s : BsonP} (he : Wrapped D P e) (h : Done (blax S weak) D e s) :
    Yields (fun x => x.1 = .DocEnd → ∃ u, (blax S weak).Doc .Value u ∧ SPos D (P ++ u) x.2.inp) s.getNextToken := by
  obtain ⟨hcs, sz, k, hz, hk, hpre, hl⟩ := he
  rcases h with ⟨h, -⟩ | ⟨-, l, ls, l', h1, h2, h3⟩
  · rw [hcs] at h; cases h
  rw [hl] at h1
  cases h1
  rw [hcs] at h2
  unfold BsonP.getNextToken
  refine (settle_rest h2).bind ?_
  intro s1 g1
  dsimp only
  split
  · have hin : ∃ p, BIn D p s1.inp := by
      rw [g1.inp]
      rcases h3 with h | ⟨q, -, h, -⟩
      · exact ⟨D, .inl h⟩
      · exact ⟨_, .inr h⟩
    obtain ⟨p, hin⟩ := hin
    refine (key_at (by simp) g1.conts g1.left g1.size g1.skip hin).bind ?_
    rintro s2 ⟨hc2, k2, -, pre2, -, hat⟩
    rw [hc2] at hat ⊢
    dsimp only
    rw [if_neg (by simp)]
    refine (handOut_at (S := S) (weak := weak) hat).mono ?_
    rintro ⟨t, s3⟩ (⟨ht, -⟩ | ⟨m, ht, -⟩) hx
    · dsimp only at ht hx; rw [ht] at hx; cases hx
    · dsimp only at ht hx; rw [ht] at hx; cases m <;> cases hx
  · next hk1 =>
    have h0 : (l' - 1) % (2 ^ 64 : Int) = 0 := by
      rw [g1.next] at hk1
      unfold bdue at hk1
      split at hk1
      · assumption
      · exact absurd rfl hk1
    have hn : s1.next = .DocEnd := by
      rw [g1.next]
      unfold bdue
      rw [if_pos h0]
    unfold BsonP.handOut
    rw [hn, g1.conts]
    simp only [List.head?_cons, if_true]
    refine Yields.bind (P := fun s' : BsonP => ∃ u, (blax S weak).Doc .Value u ∧ SPos D (P ++ u) s'.inp) ?_ fun s' hs' => .ok fun _ => hs'
    rcases h3 with h | ⟨q, hq, hp, hl'⟩
    · refine (readEnd_full (p := D) (.inl (by rw [g1.inp]; exact h))).mono ?_
      rintro s' ⟨hp, -⟩
      exact absurd hp pos_beyond
    · refine (readEnd_full (.inr (by rw [g1.inp]; exact hp))).mono ?_
      rintro s' ⟨hp', -⟩
      rcases hpre with hpre | hpre
      · have hb := BsonP.leInt_bound4 hz
        rw [hpre] at hp' hp
        have hle : q.length + k.length ≤ D.length := by
          obtain ⟨-, -, post, hd⟩ := hp
          have := congrArg List.length hd
          simp only [List.length_append, List.length_cons, List.length_nil] at this
          omega
        have hs : leInt sz = 7 + k.length + q.length := by omega
        have hf : framed (e.ty :: k ++ [0x00] ++ q) = sz ++ (e.ty :: k ++ [0x00] ++ q) ++ [0x00] := by
          have hn : ((4 + (e.ty :: k ++ [0x00] ++ q).length + 1 : Nat) : Int) = leInt sz := by
            simp only [List.length_append, List.length_cons, List.length_nil]; omega
          unfold framed
          simp only [hn, le_leInt hz]
        refine ⟨_, ⟨e.ty, k, q, hk, hq, rfl, ?_⟩, by rw [hf]; simpa using hp'⟩
        rw [hf]
        simp only [List.length_append, List.length_cons, List.length_nil, hz]
        omega
      · exfalso
        rw [hpre] at hp
        simp only [List.append_assoc, List.cons_append] at hp
        exact pos_beyond hp

/-- What an import of any bytes has read, if it succeeds. -/
theorem import_lax (env : Env) (cfg : Cfg) (ty : Ty) (old : Val) (D : Bytes) (hD : D.length < 2 ^ 63) (ha : cfg.strict = .Weak → ∀ b ∈ D, b.toNat < 128) :
    Yields (fun x => ∃ u, (blax (Occurs env ty) (cfg.strict = .Weak)).Doc (bsonBase env ty) u ∧ SPos D u x.2.inner.inp)
      (importValue BsonP.ops env cfg ty old (PI.init (BsonP.ofBytes (bsonBase env ty) D))) := by
  have W := bsonTrack D (Occurs env ty) (cfg.strict = .Weak) [] hD ha
  have hS := occurs_closed env ty
  have hpos : SPos D [] (StrIn.ofBytes D) := ⟨rfl, rfl, D, rfl⟩
  unfold importValue
  have start : ∀ (m : BCont) (t : Tok), m ≠ .Value → bsonBase env ty = m → t = startTok m →
      (PI.init (BsonP.ofBytes (bsonBase env ty) D)).getToken BsonP.ops = .ok (.DocStart, PI.init { BsonP.ofBytes m D with next := t }) →
      Yields (fun x => ∃ u, (blax (Occurs env ty) (cfg.strict = .Weak)).Doc (bsonBase env ty) u ∧ SPos D u x.2.inner.inp)
        (importValue BsonP.ops env cfg ty old (PI.init (BsonP.ofBytes (bsonBase env ty) D))) := by
    intro m t hm hb ht hd
    unfold importValue
    rw [hd]
    simp only [Res.ok_bind, ne_eq, not_true_eq_false, if_false]
    refine (deser_track W env cfg (fun h => h) hS ty old (PI.init { BsonP.ofBytes m D with next := t }) (fun x => x = ⟨[], contType m, [], [], []⟩)
      ⟨.self, rfl, .inr (.inl ⟨rfl, .inl ⟨_, rfl, ⟨rfl, rfl, rfl, .inr hpos, .inl ⟨m, hm, rfl, ht, rfl, by simp [PI.init, BsonP.ofBytes]⟩⟩⟩⟩)⟩).bind ?_
    rintro ⟨v, ⟨s, pb1, pb2⟩⟩ ⟨h1, h2, h3⟩
    dsimp only at h1 h2 h3 ⊢
    subst h1 h2
    rcases h3 with h | ⟨_, rfl, h3⟩
    · exact h.elim
    refine Yields.bind (P := fun x : Tok × PI BsonP => ∃ u, (blax (Occurs env ty) (cfg.strict = .Weak)).Payload (contType m) u ∧ SPos D u x.2.inner.inp) ?_ ?_
    · exact (top_end h3).bind fun x hx => .ok (by simpa using hx)
    · rintro ⟨k, p⟩ ⟨u, hu, hp⟩
      dsimp only
      split
      · exact .throwStd
      · refine .ok ⟨u, ?_, hp⟩
        rw [hb]
        cases m
        case Value => exact absurd rfl hm
        all_goals exact hu
  cases hb : bsonBase env ty with
  | Map => rw [← hb]; exact start .Map .MapStart (by simp) hb rfl (by rw [hb]; rfl)
  | Array => rw [← hb]; exact start .Array .ArrayStart (by simp) hb rfl (by rw [hb]; rfl)
  | Value =>
    refine Yields.bind (P := fun x : Tok × PI BsonP => x.1 = .DocStart ∧ TClean (AtWrap D []) x.2) ?_ ?_
    · refine Yields.bind (P := fun x : Tok × BsonP => x.1 = .DocStart ∧ AtWrap D [] x.2) ?_ fun x hx => .ok ⟨hx.1, rfl, rfl, hx.2⟩
      show Yields _ (do
        let s ← BsonP.openLevel { BsonP.ofBytes .Value D with next := .Key, conts := [.Value, .Value] }
        return (Tok.DocStart, s) : Res (Tok × BsonP))
      unfold BsonP.openLevel
      refine Yields.bind (P := fun s' => AtWrap D [] s') ?_ fun s' hs => .ok ⟨rfl, hs⟩
      refine (readLE_full (by decide) (.inr hpos)).bind ?_
      rintro ⟨v, i'⟩ ⟨b, hb, hv, hp⟩
      dsimp only at hv hp ⊢
      subst hv
      exact .ok ⟨rfl, rfl, rfl, b, hb, hp, rfl⟩
    rintro ⟨k, p⟩ ⟨hk, hc⟩
    dsimp only at hk hc ⊢
    rw [if_neg (by simp [hk])]
    refine (deser_track W env cfg (fun h => h) hS ty old p (Wrapped D []) ⟨.self, hc.pb2, .inr (.inl ⟨hc.pb1, .inr ⟨fun e h => h, hc.inner⟩⟩)⟩).bind ?_
    rintro ⟨v, ⟨s, pb1, pb2⟩⟩ ⟨h1, h2, h3⟩
    dsimp only at h1 h2 h3 ⊢
    subst h1 h2
    rcases h3 with h | ⟨e, he, h3⟩
    · exact h.elim
    refine Yields.bind (P := fun x : Tok × PI BsonP => x.1 = .DocEnd → ∃ u, (blax (Occurs env ty) (cfg.strict = .Weak)).Doc .Value u ∧ SPos D u x.2.inner.inp) ?_ ?_
    · exact (wrap_end hD he h3).bind fun x hx => .ok (by simpa using hx)
    · rintro ⟨k, p⟩ hx
      dsimp only at hx ⊢
      split
      · exact .throwStd
      · next hk => exact .ok (hx (by simpa using hk))

end BTrk
end Thors
