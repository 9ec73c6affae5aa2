import Verif.Proofs.Watch
import Verif.Proofs.BsonPresents
import Verif.Proofs.BsonPrint
/-
A BSON document that announces more bytes than there are is never accepted.
-/
namespace Thors
open StrIn

/-- The data are shorter than they say in their first four bytes. -/
def TooShort (d : Bytes) : Prop := d.length < 4 ∨ (d.length : Int) < leInt (d.take 4)

namespace BsonP

def opening (t : Tok) : Bool := t = .MapStart ∨ t = .ArrayStart
def closing (t : Tok) : Bool := t = .MapEnd ∨ t = .ArrayEnd ∨ t = .DocEnd

/-- Containers: the outermost ones first opened come last. -/
def Stack (info : BCont) (cs : List BCont) (depth : Nat) : Prop :=
  ∃ inner : List BCont, (.Value ∉ inner) ∧ inner.length + 1 = depth ∧
    cs = inner ++ (if info = .Value then [.Value, .Value] else [info])

/-- What the sizes say is still to come ends where the document ends; or the input is exhausted. -/
def Counted (s : BsonP) : Prop := s.inp.data.length ≤ s.inp.pos ∨ (s.inp.pos + s.left.sum - s.size.sum) % (2 ^ 64 : Int) = 0

/-- Inside a document that is too short. -/
structure Within (d : Bytes) (info : BCont) (N : Int) (s : BsonP) : Prop where
  data : s.inp.data = d
  total : s.size.getLast? = some N
  levels : s.left.length = s.size.length
  stack : Stack info s.conts (s.left.length + if opening s.next then 1 else 0)
  counted : Counted s
  ends : closing s.next = true → s.skip = false → ∃ l ls, s.left = l :: ls ∧ (l - 1) % (2 ^ 64 : Int) = 0
  docEnd : s.next = .DocEnd → s.conts.head? = some .Value
  starts : opening s.next = true → s.skip = false
  notStart : s.next ≠ .DocStart

/-- Before or inside a document that is too short. -/
def Inside (d : Bytes) (info : BCont) (s : BsonP) : Prop :=
  s = ofBytes info d ∨ (info = .Map ∧ s = { ofBytes info d with next := .MapStart }) ∨ (info = .Array ∧ s = { ofBytes info d with next := .ArrayStart }) ∨
  ((d.length : Int) < leInt (d.take 4) ∧ leInt (d.take 4) < 2 ^ 31 ∧ Within d info (leInt (d.take 4)) s)

theorem read_ok {inp inp' : StrIn} {n : Nat} {got : Bytes} {good : Bool} (hn : 0 < n) (h : inp.read n = .ok (got, good, inp')) :
    inp.pos + got.length ≤ inp.data.length ∧ (got.length = n ∨ got.length ≤ n ∧ inp.pos + got.length = inp.data.length) ∧ inp'.data = inp.data ∧
      inp'.pos = inp.pos + got.length ∧ got = (inp.data.drop inp.pos).take n := by
  unfold StrIn.read at h
  split at h
  · cases h
  · rename_i hp
    cases h
    simp
    omega

theorem readLE_ok {inp inp' : StrIn} {n : Nat} {v : Int} (hn : 0 < n) (h : readLE n inp = .ok (v, inp')) :
    inp.pos + n ≤ inp.data.length ∧ inp'.data = inp.data ∧ inp'.pos = inp.pos + n ∧ v = leInt ((inp.data.drop inp.pos).take n) := by
  unfold readLE at h
  obtain ⟨⟨got, good, inp1⟩, h1, h2⟩ := Res.bind_ok h
  obtain ⟨a, b, c, d, e⟩ := read_ok hn h1
  dsimp only at h2
  split at h2
  · cases h2
  · cases h2
    have : got.length = n := by omega
    exact ⟨by omega, c, by omega, by rw [e]⟩

theorem use_ok {s s' : BsonP} {n : Int} (h : s.use n = .ok s') : ∃ l ls, s.left = l :: ls ∧ s' = { s with left := (l - n) :: ls } := by
  unfold use at h
  split at h
  · cases h
  · rename_i l ls e
    cases h
    exact ⟨l, ls, e, rfl⟩

theorem readEnd_ok {s s' : BsonP} (h : s.readEnd = .ok s') : s.inp.pos < s.inp.data.length ∧ ∃ l ls inp', s.left = l :: ls ∧
    s' = { s with inp := inp', left := (l - 1) :: ls } ∧ inp'.data = s.inp.data ∧ inp'.pos = s.inp.pos + 1 := by
  unfold readEnd at h
  obtain ⟨⟨got, good, inp1⟩, h1, h2⟩ := Res.bind_ok h
  obtain ⟨a, b, c, d, e⟩ := read_ok (by decide) h1
  dsimp only at h2
  split at h2
  · cases h2
  obtain ⟨s1, h3, h4⟩ := Res.bind_ok h2
  obtain ⟨l, ls, e1, e2⟩ := use_ok h3
  split at h4
  · cases h4
  · rename_i hg
    cases h4
    have : got.length = 1 := by
      cases got with
      | nil => simp at hg
      | cons x xs => have := List.length_cons (a := x) (as := xs); omega
    exact ⟨by omega, l, ls, inp1, e1, e2, c, by omega⟩

theorem readKey_ok {s s' : BsonP} (h : s.readKey = .ok s') : s.inp.pos < s.inp.data.length ∧ ∃ l ls inp' key type, s.left = l :: ls ∧
    s' = { s with inp := inp', key := key, type := type, left := (l - (1 + key.length + 1)) :: ls } ∧ inp'.data = s.inp.data ∧
      inp'.pos = s.inp.pos + (1 + key.length + 1) := by
  unfold readKey at h
  obtain ⟨⟨got, good, inp1⟩, h1, h2⟩ := Res.bind_ok h
  obtain ⟨a, b, c, d, e⟩ := read_ok (by decide) h1
  dsimp only at h2
  split at h2
  · cases h2
  obtain ⟨⟨key, good, inp2⟩, h3, h4⟩ := Res.bind_ok h2
  dsimp only at h4
  split at h4
  · cases h4
  rename_i hg
  obtain ⟨l, ls, e1, e2⟩ := use_ok h4
  unfold StrIn.readTo at h3
  split at h3
  · cases h3
  cases h3
  simp only [Bool.not_eq_false, decide_eq_true_eq] at hg
  have hk : upTo 0x00 (List.drop inp1.pos inp1.data) ≤ (List.drop inp1.pos inp1.data).length := by
    rw [List.length_drop]; omega
  have hl : ((List.drop inp1.pos inp1.data).take (upTo 0x00 (List.drop inp1.pos inp1.data))).length = upTo 0x00 (List.drop inp1.pos inp1.data) := by
    rw [List.length_take]; omega
  have : got.length = 1 := by rw [c] at hg; omega
  refine ⟨by omega, l, ls, _, _, _, e1, e2, c, ?_⟩
  simp only
  omega

theorem Within.consume {d : Bytes} {info : BCont} {N : Int} {s s' : BsonP} (h : Within d info N s) {l n : Int} {ls : List Int} {inp' : StrIn} {key : Bytes} {type : Byte}
    (hl : s.left = l :: ls) (e : s' = { s with inp := inp', key := key, type := type, left := (l - n) :: ls }) (hd : inp'.data = s.inp.data)
    (hm : s.inp.data.length ≤ s.inp.pos → s.inp.data.length ≤ inp'.pos) (hc : s.inp.data.length ≤ inp'.pos ∨ (inp'.pos : Int) = s.inp.pos + n)
    (hne : closing s.next = true → s.skip = true) : Within d info N s' := by
  subst e
  refine ⟨by rw [← h.data]; exact hd, h.total, ?_, ?_, ?_, ?_, h.docEnd, h.starts, h.notStart⟩
  · have := h.levels; rw [hl] at this; simpa using this
  · have := h.stack; rw [hl] at this; simpa using this
  · have := h.counted
    unfold Counted at this ⊢
    dsimp only
    rw [hd]
    rcases hc with hc | hc
    · exact .inl hc
    rcases this with h1 | h1
    · exact .inl (hm h1)
    · refine .inr ?_
      rw [hl] at h1
      simp only [List.sum_cons] at h1 ⊢
      rw [hc]
      omega
  · intro h1 h2
    rw [hne h1] at h2
    cases h2

theorem endToken_ok {s : BsonP} {t : Option Tok} (h : s.endToken = .ok t) : ∃ l ls, s.left = l :: ls ∧
    (((l - 1) % (2 ^ 64 : Int) = 0 ∧ ∃ c cs, s.conts = c :: cs ∧ t = some (match c with | .Map => Tok.MapEnd | .Array => .ArrayEnd | .Value => .DocEnd)) ∨ t = none) := by
  unfold endToken at h
  split at h
  · cases h
  rename_i l ls e
  refine ⟨l, ls, e, ?_⟩
  split at h
  · rename_i h1
    split at h
    · cases h
    all_goals rename_i hc; cases h; exact .inl ⟨h1, _, _, hc, rfl⟩
  · cases h; exact .inr rfl

/-- The end of a container is reached, or a key comes. -/
theorem Within.decide {d : Bytes} {info : BCont} {N : Int} {s s' : BsonP} {t : Option Tok} (h : s.endToken = .ok t)
    (hd : s.inp.data = d) (ht : s.size.getLast? = some N) (hl : s.left.length = s.size.length) (hs : Stack info s.conts s.left.length) (hc : Counted s)
    (he : ∃ ty, s' = { s with skip := false, type := ty, next := t.getD .Key }) : Within d info N s' := by
  obtain ⟨ty, rfl⟩ := he
  obtain ⟨l, ls, e, h | rfl⟩ := endToken_ok h
  · obtain ⟨h1, c, cs, h2, rfl⟩ := h
    cases c
    all_goals exact ⟨hd, ht, hl, by simpa [opening] using hs, hc, fun _ _ => ⟨l, ls, e, h1⟩, by simp [h2], by simp [opening], by simp⟩
  · exact ⟨hd, ht, hl, by simpa [opening] using hs, hc, by simp [closing], by simp, by simp [opening], by simp⟩

theorem settle_ok {d : Bytes} {info : BCont} {N : Int} {s s' : BsonP} (h : Within d info N s) (e : s.settle = .ok s') : Within d info N s' ∧ s'.skip = false := by
  unfold settle at e
  split at e
  · rename_i hs
    have ho : opening s.next = false := by
      cases ho : opening s.next with
      | false => rfl
      | true => have := h.starts ho; rw [hs] at this; cases this
    obtain ⟨t, h1, h2⟩ := Res.bind_ok e
    have hst := h.stack
    rw [ho] at hst
    cases t with
    | some t =>
      cases h2
      exact ⟨Within.decide h1 h.data h.total h.levels (by simpa using hst) h.counted ⟨s.type, rfl⟩, rfl⟩
    | none =>
      cases h2
      exact ⟨Within.decide h1 h.data h.total h.levels (by simpa using hst) h.counted ⟨0x00, rfl⟩, rfl⟩
  · rename_i hs
    cases e
    exact ⟨h, by simpa using hs⟩

/-- The last byte is missing. -/
theorem Within.no_end {d : Bytes} {info : BCont} {N : Int} {s s' : BsonP} (h : Within d info N s) (hn : (d.length : Int) < N) (hN : N < 2 ^ 31)
    (h1 : s.left.length = 1) (hc : closing s.next = true) (hs : s.skip = false) (e : s.readEnd = .ok s') : False := by
  obtain ⟨hp, l, ls, inp', hl, -, -, -⟩ := readEnd_ok e
  obtain ⟨l', ls', hl', hm⟩ := h.ends hc hs
  rw [hl] at hl'
  cases hl'
  rw [hl] at h1
  obtain rfl : ls = [] := by cases ls with | nil => rfl | cons _ _ => simp at h1
  have hz := h.levels
  rw [hl] at hz
  obtain ⟨z, hz⟩ : ∃ z, s.size = [z] := by
    match hh : s.size with
    | [z] => exact ⟨z, rfl⟩
    | [] => rw [hh] at hz; simp at hz
    | _ :: _ :: _ => rw [hh] at hz; simp at hz
  have ht := h.total
  rw [hz] at ht
  simp at ht
  subst ht
  have hcn := h.counted
  unfold Counted at hcn
  rw [hl, hz, h.data] at hcn
  rw [h.data] at hp
  simp only [List.sum_cons, List.sum_nil] at hcn
  omega

theorem stack_pop {info c : BCont} {cs : List BCont} {n : Nat} (h : Stack info (c :: cs) (n + 2)) : Stack info cs (n + 1) := by
  obtain ⟨inner, h1, h2, h3⟩ := h
  cases inner with
  | nil => simp at h2
  | cons x inner =>
    simp at h2 h3 h1
    exact ⟨inner, h1.2, by omega, h3.2⟩

theorem handOut_ok {d : Bytes} {info : BCont} {N : Int} {s : BsonP} (hn : (d.length : Int) < N) (hN : N < 2 ^ 31) (h : Within d info N s) (hs : s.skip = false) :
    Yields (fun x => Within d info N x.2 ∧ x.1 ≠ .DocEnd ∧ (x.1 = .Value → x.2.skip = true)) s.handOut := by
  have hopen : ∀ tok : Tok, tok ≠ .DocEnd → tok ≠ .Value → opening s.next = true → Yields (fun x => Within d info N x.2 ∧ x.1 ≠ .DocEnd ∧ (x.1 = .Value → x.2.skip = true)) (do
      let s ← s.openLevel
      match s.left, s.conts with
      | l :: _, c :: _ =>
        if (l - 1) % (2 ^ 64 : Int) = 0 then return (tok, { s with next := if c = .Map then .MapEnd else .ArrayEnd })
        else return (tok, { s with next := .Key })
      | l :: _, [] => if (l - 1) % (2 ^ 64 : Int) = 0 then .ub else return (tok, { s with next := .Key })
      | [], _ => .ub) := by
    intro tok ht1 ht2 ho x e
    obtain ⟨s1, e1, e2⟩ := Res.bind_ok e
    unfold openLevel at e1
    obtain ⟨⟨v, inp'⟩, e3, e4⟩ := Res.bind_ok e1
    cases e4
    obtain ⟨hp, hd, hpos, -⟩ := readLE_ok (by decide) e3
    have hst := h.stack
    rw [ho] at hst
    have hc : Counted ({ s with inp := inp', left := (v - 4) :: s.left, size := v :: s.size } : BsonP) := by
      have := h.counted
      unfold Counted at this ⊢
      simp only [List.sum_cons]
      rw [hd, hpos]
      omega
    have ht : (v :: s.size).getLast? = some N := by
      have := h.total
      cases hz : s.size with
      | nil => rw [hz] at this; cases this
      | cons z zs => rw [hz] at this; rw [List.getLast?_cons_cons]; exact this
    have hlv : ((v - 4) :: s.left).length = (v :: s.size).length := by simp [h.levels]
    have hd' : inp'.data = d := by rw [hd]; exact h.data
    have key : Within d info N ({ s with inp := inp', left := (v - 4) :: s.left, size := v :: s.size, next := .Key } : BsonP) :=
      ⟨hd', ht, hlv, by simpa [opening] using hst, hc, by simp [closing], by simp, by simp [opening], by simp⟩
    dsimp only at e2
    split at e2
    · rename_i l ls c cs hl hcs
      cases hl
      split at e2
      · rename_i hm
        cases e2
        refine ⟨⟨hd', ht, hlv, ?_, hc, fun _ _ => ⟨_, _, rfl, hm⟩, ?_, ?_, ?_⟩, ht1, fun e => absurd e ht2⟩
        · dsimp only; split <;> simpa [opening] using hst
        · dsimp only; split <;> simp
        · dsimp only; split <;> simp [opening]
        · dsimp only; split <;> simp
      · cases e2; exact ⟨key, ht1, fun e => absurd e ht2⟩
    · split at e2
      · cases e2
      · cases e2; exact ⟨key, ht1, fun e => absurd e ht2⟩
    · cases e2
  have hclose : ∀ tok : Tok, tok ≠ .DocEnd → tok ≠ .Value → closing s.next = true → opening s.next = false → Yields (fun x => Within d info N x.2 ∧ x.1 ≠ .DocEnd ∧ (x.1 = .Value → x.2.skip = true)) (do
      let s ← s.readEnd
      match s.conts, s.left, s.size with
      | [_], _ :: ls, _ :: zs => return (tok, { s with conts := [], left := ls, size := zs, next := .DocEnd })
      | _ :: c :: cs, _ :: l :: ls, z :: zs => do
        let s := { s with conts := c :: cs, left := (l - z) :: ls, size := zs }
        match ← s.endToken with
        | some t => return (tok, { s with next := t })
        | none => return (tok, { s with next := .Key })
      | _, _, _ => .ub) := by
    intro tok ht1 ht2 hcl ho x e
    obtain ⟨s1, e1, e2⟩ := Res.bind_ok e
    obtain ⟨hp, l, ls, inp', hl, rfl, hd, hpos⟩ := readEnd_ok e1
    have hst := h.stack
    rw [ho, hl] at hst
    obtain ⟨l', ls', hl', hm⟩ := h.ends hcl hs
    rw [hl] at hl'
    cases hl'
    dsimp only at e2
    split at e2
    · rename_i ls1 zs1 z1 hcs hl1 hz1
      exfalso
      refine h.no_end hn hN ?_ hcl hs e1
      rename_i c _ _ _ _
      obtain ⟨inner, i1, i2, i3⟩ := hst
      rw [hl]
      show ls.length + 1 = 1
      simp only [List.length_cons, Bool.false_eq_true, if_false] at i2
      rw [hcs] at i3
      have := congrArg List.length i3
      split at this <;> simp only [List.length_append, List.length_cons, List.length_nil] at this <;> omega
    · rename_i c0 c cs l0 l1 ls1 z zs hcs hl1 hz1
      cases hl1
      rw [hcs] at hst
      have hst' := stack_pop (n := ls1.length) (by simpa using hst)
      have hc : Counted ({ s with inp := inp', conts := c :: cs, left := (l1 - z) :: ls1, size := zs } : BsonP) := by
        have := h.counted
        unfold Counted at this ⊢
        rw [hl, hz1] at this
        simp only [List.sum_cons] at this ⊢
        rw [hd, hpos]
        omega
      have ht : zs.getLast? = some N := by
        have h1 := h.total
        have h2 := h.levels
        rw [hz1] at h1 h2
        rw [hl] at h2
        cases zs with
        | nil => simp at h2
        | cons z' zs => rwa [List.getLast?_cons_cons] at h1
      have hlv : ((l1 - z) :: ls1).length = zs.length := by
        have h2 := h.levels
        rw [hz1, hl] at h2
        simpa using h2
      have hd' : inp'.data = d := by rw [hd]; exact h.data
      obtain ⟨t, e3, e4⟩ := Res.bind_ok e2
      have key := fun s' he => Within.decide (d := d) (info := info) (N := N) (s' := s') e3 hd' ht hlv (by simpa using hst') hc he
      cases t with
      | some t => cases e4; exact ⟨key _ ⟨s.type, by simp [hs]⟩, ht1, fun e => absurd e ht2⟩
      | none => cases e4; exact ⟨key _ ⟨s.type, by simp [hs]⟩, ht1, fun e => absurd e ht2⟩
    · cases e2
  unfold handOut
  cases hnx : s.next with
  | DocStart => exact absurd hnx h.notStart
  | DocEnd =>
    dsimp only
    rw [if_pos (h.docEnd hnx)]
    intro x e
    obtain ⟨s1, e1, e2⟩ := Res.bind_ok e
    exfalso
    refine h.no_end hn hN ?_ (by simp [hnx, closing]) hs e1
    have hst := h.stack
    rw [hnx] at hst
    obtain ⟨inner, i1, i2, i3⟩ := hst
    have hh := h.docEnd hnx
    rw [i3] at hh
    cases inner with
    | nil => simp [opening] at i2; omega
    | cons x inner => simp at hh i1; exact absurd hh.symm i1.1
  | MapStart => dsimp only; exact hopen _ (by simp) (by simp) (by simp [hnx, opening])
  | ArrayStart => dsimp only; exact hopen _ (by simp) (by simp) (by simp [hnx, opening])
  | MapEnd => dsimp only; exact hclose _ (by simp) (by simp) (by simp [hnx, closing]) (by simp [hnx, opening])
  | ArrayEnd => dsimp only; exact hclose _ (by simp) (by simp) (by simp [hnx, closing]) (by simp [hnx, opening])
  | Value =>
    dsimp only
    refine .ok ⟨⟨h.data, h.total, h.levels, by simpa [hnx] using h.stack, h.counted, by simp [closing], by simp, by simp [opening], by simp⟩, by simp, by simp⟩
  | _ => exact .throwStd

theorem next_within {d : Bytes} {info : BCont} {N : Int} {s : BsonP} (hn : (d.length : Int) < N) (hN : N < 2 ^ 31) (h : Within d info N s) :
    Yields (fun x => Within d info N x.2 ∧ x.1 ≠ .DocEnd ∧ (x.1 = .Value → x.2.skip = true)) s.getNextToken := by
  intro x e
  unfold getNextToken at e
  obtain ⟨s1, e1, e2⟩ := Res.bind_ok e
  obtain ⟨h1, hs⟩ := settle_ok h e1
  split at e2
  · rename_i hk
    obtain ⟨s2, e3, e4⟩ := Res.bind_ok e2
    obtain ⟨hp, l, ls, inp', key, type, hl, he, hd, hpos⟩ := readKey_ok e3
    have h2 : Within d info N s2 := h1.consume hl he hd (by omega) (by right; omega) (by simp [hk, closing])
    have hk2 : s2.next = .Key := by rw [he]; exact hk
    have hs2 : s2.skip = false := by rw [he]; exact hs
    have hst := h2.stack
    rw [hk2] at hst
    split at e4
    · cases e4
    · rename_i c cs hcs
      have push : ∀ (c' : BCont) (t : Tok), c' ≠ .Value → opening t = true → Within d info N ({ s2 with conts := c' :: s2.conts, next := t } : BsonP) := by
        intro c' t hc' ht
        have hct : closing t = false := by cases t <;> simp [opening, closing] at ht ⊢
        refine ⟨h2.data, h2.total, h2.levels, ?_, h2.counted, by simp [hct], ?_, fun _ => hs2, ?_⟩
        · obtain ⟨inner, i1, i2, i3⟩ := hst
          refine ⟨c' :: inner, by simp [i1]; exact fun e => hc' e.symm, ?_, by simp [i3]⟩
          simp only [ht, if_true, List.length_cons]
          simp [opening] at i2
          omega
        · intro e; dsimp only at e; rw [e] at ht; simp [opening] at ht
        · intro e; dsimp only at e; rw [e] at ht; simp [opening] at ht
      dsimp only at e4
      generalize hs3 : (if s2.type = 0x03 then { s2 with conts := .Map :: s2.conts, next := .MapStart }
        else if s2.type = 0x04 then { s2 with conts := .Array :: s2.conts, next := .ArrayStart }
        else { s2 with next := .Value } : BsonP) = s3 at e4
      have h3 : Within d info N s3 ∧ s3.skip = false := by
        rw [← hs3]
        split
        · exact ⟨push _ _ (by simp) (by simp [opening]), hs2⟩
        split
        · exact ⟨push _ _ (by simp) (by simp [opening]), hs2⟩
        · exact ⟨⟨h2.data, h2.total, h2.levels, by simpa [opening] using hst, h2.counted, by simp [closing], by simp, by simp [opening], by simp⟩, hs2⟩
      split at e4
      · cases e4
        exact ⟨h3.1, by simp, by simp⟩
      · exact handOut_ok hn hN h3.1 h3.2 x e4
  · exact handOut_ok hn hN h1 hs x e2

theorem leNat_bound (bs : Bytes) : leNat bs < 2 ^ (8 * bs.length) := by
  induction bs with
  | nil => simp [leNat]
  | cons b bs ih =>
    have : b.toNat < 256 := b.toNat_lt
    have e : 2 ^ (8 * (b :: bs).length) = 256 * 2 ^ (8 * bs.length) := by
      rw [List.length_cons, Nat.mul_add, Nat.pow_add]; omega
    rw [leNat, e]
    omega

theorem leInt_bound4 {bs : Bytes} (h : bs.length = 4) : - 2 ^ 31 ≤ leInt bs ∧ leInt bs < 2 ^ 31 := by
  have := leNat_bound bs
  unfold leInt
  rw [h] at this ⊢
  split <;> omega

theorem readInt_within {d : Bytes} {info : BCont} {N : Int} {s : BsonP} (n : Nat) (hn : 0 < n) (h : Within d info N s) (hs : s.skip = true) :
    Yields (fun x => Within d info N x.2) (s.readInt n) := by
  intro x e
  unfold readInt at e
  obtain ⟨s1, e1, e2⟩ := Res.bind_ok e
  obtain ⟨l, ls, hl, rfl⟩ := use_ok e1
  obtain ⟨⟨v, inp'⟩, e3, e4⟩ := Res.bind_ok e2
  obtain ⟨hp, hd, hpos, -⟩ := readLE_ok hn e3
  cases e4
  exact h.consume hl rfl hd (by dsimp only at hp hpos ⊢; omega) (by right; dsimp only at hpos ⊢; omega) (fun _ => hs)

theorem readBool_within {d : Bytes} {info : BCont} {N : Int} {s : BsonP} (h : Within d info N s) (hs : s.skip = true) :
    Yields (fun x => Within d info N x.2) s.readBool := by
  intro x e
  unfold readBool at e
  obtain ⟨⟨got, good, inp'⟩, e1, e2⟩ := Res.bind_ok e
  obtain ⟨a, b, hd, hpos, -⟩ := read_ok (by decide) e1
  dsimp only at e2
  split at e2
  · cases e2
  obtain ⟨s1, e3, e4⟩ := Res.bind_ok e2
  obtain ⟨l, ls, hl, rfl⟩ := use_ok e3
  have : got.length = 1 → Within d info N ({ s with inp := inp', left := (l - 1) :: ls } : BsonP) := fun hg =>
    h.consume hl rfl hd (by omega) (by right; omega) (fun _ => hs)
  split at e4
  · cases e4; exact this rfl
  · cases e4; exact this rfl
  · cases e4

theorem readDouble_within {d : Bytes} {info : BCont} {N : Int} {s : BsonP} (h : Within d info N s) (hs : s.skip = true) :
    Yields (fun x => Within d info N x.2) s.readDouble := by
  intro x e
  unfold readDouble at e
  obtain ⟨⟨got, good, inp'⟩, e1, e2⟩ := Res.bind_ok e
  obtain ⟨a, b, hd, hpos, -⟩ := read_ok (by decide) e1
  dsimp only at e2
  split at e2
  · cases e2
  obtain ⟨s1, e3, e4⟩ := Res.bind_ok e2
  obtain ⟨l, ls, hl, rfl⟩ := use_ok e3
  split at e4
  · cases e4
  · cases e4
    exact h.consume hl rfl hd (by omega) (by right; dsimp only; omega) (fun _ => hs)

theorem getStr_within {d : Bytes} {info : BCont} {N : Int} {s : BsonP} (h : Within d info N s) (hs : s.skip = true) :
    Yields (fun x => Within d info N x.2) s.getStr := by
  intro x e
  unfold getStr at e
  split at e
  · cases e
  unfold readString at e
  obtain ⟨⟨n, inp1⟩, e1, e2⟩ := Res.bind_ok e
  obtain ⟨hp, hd, hpos, -⟩ := readLE_ok (by decide) e1
  obtain ⟨s1, e3, e4⟩ := Res.bind_ok e2
  obtain ⟨l, ls, hl, rfl⟩ := use_ok e3
  dsimp only at e4
  split at e4
  · split at e4 <;> cases e4
  obtain ⟨⟨got, good, inp2⟩, e5, e6⟩ := Res.bind_ok e4
  dsimp only at e6
  split at e6
  · cases e6
  obtain ⟨s2, e7, e8⟩ := Res.bind_ok e6
  obtain ⟨l', ls', hl', rfl⟩ := use_ok e7
  cases hl'
  split at e8
  · cases e8
  rename_i hneg
  obtain ⟨a, b, hd2, hpos2, -⟩ := read_ok (by simp at hneg; omega) e5
  cases e8
  refine h.consume (n := 4 + n) hl (by rw [Int.sub_sub]) (hd2.trans hd) ?_ ?_ (fun _ => hs)
  · intro h1; omega
  · dsimp only at *
    rw [hd] at b
    omega

theorem ignoreBytes_within {d : Bytes} {info : BCont} {N : Int} {s : BsonP} (n : Int) (hn : 0 ≤ n) (h : Within d info N s) (hs : s.skip = true) :
    Yields (Within d info N) (s.ignoreBytes n) := by
  intro x e
  unfold ignoreBytes at e
  obtain ⟨l, ls, hl, rfl⟩ := use_ok e
  refine h.consume hl rfl rfl ?_ ?_ (fun _ => hs)
  · intro h1; simp only [StrIn.ignoreInt, hn, if_true]; omega
  · right; simp only [StrIn.ignoreInt, hn, if_true]; omega

theorem ignoreSized_within {d : Bytes} {info : BCont} {N : Int} {s : BsonP} (hN : N < 2 ^ 31) (hd : (d.length : Int) < N) (extra : Int) (hx : 0 ≤ extra) (h : Within d info N s) (hs : s.skip = true) :
    Yields (Within d info N) (s.ignoreSized extra) := by
  intro x e
  unfold ignoreSized at e
  obtain ⟨⟨n, inp1⟩, e1, e2⟩ := Res.bind_ok e
  obtain ⟨hp, hd1, hpos, hv⟩ := readLE_ok (by decide) e1
  have hb := leInt_bound4 (bs := (s.inp.data.drop s.inp.pos).take 4) (by simp; omega)
  rw [← hv] at hb
  dsimp only at e2
  split at e2
  · cases e2
  obtain ⟨l, ls, hl, rfl⟩ := use_ok e2
  have hdl : s.inp.data.length = d.length := by rw [h.data]
  refine h.consume hl rfl hd1 (by omega) ?_ (fun _ => hs)
  unfold StrIn.ignoreInt
  dsimp only
  split
  · right; omega
  · omega

set_option maxHeartbeats 1000000 in
theorem ignoreData_within {d : Bytes} {info : BCont} {N : Int} {s : BsonP} (hN : N < 2 ^ 31) (hd : (d.length : Int) < N) (h : Within d info N s) :
    Yields (Within d info N) s.ignoreDataValue := by
  unfold ignoreDataValue
  by_cases hs : s.skip = false
  · rw [if_pos hs]; exact .ok h
  rw [if_neg hs]
  have hs : s.skip = true := by cases e : s.skip with | true => rfl | false => exact absurd e hs
  split
  · exact ignoreBytes_within 8 (by decide) h hs
  split
  · exact ignoreBytes_within 16 (by decide) h hs
  split
  · exact ignoreBytes_within 4 (by decide) h hs
  split
  · exact ignoreBytes_within 8 (by decide) h hs
  split
  · exact ignoreBytes_within 12 (by decide) h hs
  split
  · exact ignoreBytes_within 1 (by decide) h hs
  split
  · exact ignoreBytes_within 8 (by decide) h hs
  split
  · exact ignoreBytes_within 8 (by decide) h hs
  split
  · exact .ok h
  split
  · exact ignoreSized_within hN hd 0 (by decide) h hs
  split
  · exact ignoreSized_within hN hd 1 (by decide) h hs
  · exact .throwStd

/-- The header announces more than there is. -/
theorem header_short {d : Bytes} (h : TooShort d) {v : Int} {inp' : StrIn} (e : readLE 4 (StrIn.ofBytes d) = .ok (v, inp')) :
    v = leInt (d.take 4) ∧ (d.length : Int) < v ∧ v < 2 ^ 31 ∧ inp'.data = d ∧ inp'.pos = 4 := by
  obtain ⟨hp, hd, hpos, hv⟩ := readLE_ok (by decide) e
  simp only [StrIn.ofBytes, List.drop_zero, Nat.zero_add] at hp hd hpos hv
  have hb := leInt_bound4 (bs := d.take 4) (by simp; omega)
  rcases h with h | h
  · omega
  · exact ⟨hv, by rw [hv]; exact h, by rw [hv]; exact hb.2, hd, hpos⟩

theorem first_level {d : Bytes} {info : BCont} (h : TooShort d) {s s' : BsonP} (hi : s.inp = StrIn.ofBytes d) (hl : s.left = []) (hz : s.size = []) (hs : s.skip = false)
    (hc : s.conts = if info = .Value then [.Value, .Value] else [info]) (e : s.openLevel = .ok s') (t : Tok) (ht : t = .Key ∨ (t = .MapEnd ∨ t = .ArrayEnd) ∧ ∃ l ls, s'.left = l :: ls ∧ (l - 1) % (2 ^ 64 : Int) = 0) :
    Inside d info { s' with next := t } := by
  unfold openLevel at e
  obtain ⟨⟨v, inp'⟩, e1, e2⟩ := Res.bind_ok e
  cases e2
  rw [hi] at e1
  obtain ⟨h1, h2, h3, h4, h5⟩ := header_short h e1
  refine .inr (.inr (.inr ⟨h1 ▸ h2, h1 ▸ h3, ?_⟩))
  rw [← h1]
  refine ⟨h4, by simp [hz], by simp [hl, hz], ?_, ?_, ?_, ?_, fun _ => hs, ?_⟩
  · refine ⟨[], by simp, ?_, by simp [hc]⟩
    rcases ht with rfl | ⟨rfl | rfl, -⟩ <;> simp [opening, hl]
  · refine .inr ?_
    simp [hl, hz, h5]
    omega
  · intro hcl _
    rcases ht with rfl | ⟨-, ht⟩
    · simp [closing] at hcl
    · exact ht
  · rintro rfl
    simp at ht
  · rintro rfl
    simp at ht

theorem open_inside {d : Bytes} {info : BCont} (h : TooShort d) (tok : Tok) (hnv : info ≠ .Value) (ht : tok ≠ .DocEnd ∧ tok ≠ .Value) {s : BsonP}
    (hs : s = { ofBytes info d with next := tok }) :
    Yields (fun x => Inside d info x.2 ∧ x.1 ≠ .DocEnd ∧ (x.1 = .Value → x.2.skip = true)) (do
      let s ← s.openLevel
      match s.left, s.conts with
      | l :: _, c :: _ =>
        if (l - 1) % (2 ^ 64 : Int) = 0 then return (tok, { s with next := if c = .Map then .MapEnd else .ArrayEnd })
        else return (tok, { s with next := .Key })
      | l :: _, [] => if (l - 1) % (2 ^ 64 : Int) = 0 then .ub else return (tok, { s with next := .Key })
      | [], _ => .ub) := by
  intro x e
  obtain ⟨s1, e1, e2⟩ := Res.bind_ok e
  have key := fun t ht' => first_level (info := info) h (s := s) (s' := s1) (by rw [hs]; rfl) (by rw [hs]; rfl) (by rw [hs]; rfl) (by rw [hs]; rfl) (by rw [hs, if_neg hnv]; rfl) e1 t ht'
  split at e2
  · rename_i l ls c cs hl hcs
    split at e2
    · rename_i hm
      cases e2
      refine ⟨key _ (.inr ⟨?_, l, ls, hl, hm⟩), ht.1, fun e => absurd e ht.2⟩
      split <;> simp
    · cases e2
      exact ⟨key _ (.inl rfl), ht.1, fun e => absurd e ht.2⟩
  · split at e2
    · cases e2
    · cases e2; exact ⟨key _ (.inl rfl), ht.1, fun e => absurd e ht.2⟩
  · cases e2

theorem short_watch {d : Bytes} (h : TooShort d) (info : BCont) : Watch ops (Inside d info) (fun s => s.skip = true) (· ≠ .DocEnd) where
  next := by
    rintro s (rfl | ⟨rfl, rfl⟩ | ⟨rfl, rfl⟩ | ⟨h1, h2, h3⟩)
    · show Yields _ (getNextToken _)
      have e : getNextToken (ofBytes info d) = handOut (ofBytes info d) := rfl
      rw [e]
      cases info with
      | Map => exact .ok ⟨.inr (.inl ⟨rfl, rfl⟩), by simp, by simp⟩
      | Array => exact .ok ⟨.inr (.inr (.inl ⟨rfl, rfl⟩)), by simp, by simp⟩
      | Value =>
        intro x e
        obtain ⟨s1, e1, e2⟩ := Res.bind_ok (show (openLevel { ofBytes .Value d with next := .Key, conts := [.Value, .Value] } >>= fun s => .ok (Tok.DocStart, s)) = .ok x from e)
        cases e2
        have hk : s1.next = .Key := by
          unfold openLevel at e1
          obtain ⟨_, -, e3⟩ := Res.bind_ok e1
          cases e3; rfl
        have := first_level (info := .Value) h (s' := s1) (by rfl) (by rfl) (by rfl) (by rfl) (by rfl) e1 .Key (.inl rfl)
        rw [← hk] at this
        exact ⟨this, by simp, by simp⟩
    · exact open_inside h .MapStart (by simp) (by simp) rfl
    · exact open_inside h .ArrayStart (by simp) (by simp) rfl
    · exact (next_within h1 h2 h3).mono fun _ hx => ⟨.inr (.inr (.inr ⟨h1, h2, hx.1⟩)), hx.2⟩
  getKey := fun s hs => .ok hs
  getInt := by
    rintro k s (rfl | ⟨rfl, rfl⟩ | ⟨rfl, rfl⟩ | ⟨h1, h2, h3⟩) hv
    · cases hv
    · cases hv
    · cases hv
    · show Yields _ (getInt k s)
      unfold getInt
      split
      · exact (readInt_within 4 (by decide) h3 hv).bind fun x hx => .ok (.inr (.inr (.inr ⟨h1, h2, hx⟩)))
      split
      · exact (readInt_within 8 (by decide) h3 hv).bind fun x hx => .ok (.inr (.inr (.inr ⟨h1, h2, hx⟩)))
      · exact .throwStd
  getFlt := by
    rintro f s (rfl | ⟨rfl, rfl⟩ | ⟨rfl, rfl⟩ | ⟨h1, h2, h3⟩) hv
    · cases hv
    · cases hv
    · cases hv
    · show Yields _ (getFlt f s)
      unfold getFlt
      split
      · exact (readInt_within 4 (by decide) h3 hv).bind fun x hx => .ok (.inr (.inr (.inr ⟨h1, h2, hx⟩)))
      split
      · exact (readInt_within 8 (by decide) h3 hv).bind fun x hx => .ok (.inr (.inr (.inr ⟨h1, h2, hx⟩)))
      split
      · exact (readDouble_within h3 hv).bind fun x hx => .ok (.inr (.inr (.inr ⟨h1, h2, hx⟩)))
      · exact .throwStd
  getBool := by
    rintro s (rfl | ⟨rfl, rfl⟩ | ⟨rfl, rfl⟩ | ⟨h1, h2, h3⟩) hv
    · cases hv
    · cases hv
    · cases hv
    · show Yields _ (getBool s)
      unfold getBool
      split
      · exact .throwStd
      · exact (readBool_within h3 hv).mono fun x hx => .inr (.inr (.inr ⟨h1, h2, hx⟩))
  getStr := by
    rintro s (rfl | ⟨rfl, rfl⟩ | ⟨rfl, rfl⟩ | ⟨h1, h2, h3⟩) hv
    · cases hv
    · cases hv
    · cases hv
    · exact (getStr_within h3 hv).mono fun x hx => .inr (.inr (.inr ⟨h1, h2, hx⟩))
  ignoreData := by
    rintro s (rfl | ⟨rfl, rfl⟩ | ⟨rfl, rfl⟩ | ⟨h1, h2, h3⟩)
    · exact .ok (.inl rfl)
    · exact .ok (.inr (.inl ⟨rfl, rfl⟩))
    · exact .ok (.inr (.inr (.inl ⟨rfl, rfl⟩)))
    · exact (ignoreData_within h2 h1 h3).mono fun x hx => .inr (.inr (.inr ⟨h1, h2, hx⟩))
  error := by simp
  mapStart := by simp

end BsonP

/-- Data that announce more bytes than there are: the import never returns. -/
theorem bson_short {d : Bytes} (h : TooShort d) (info : BCont) (env : Env) (cfg : Cfg) (ty : Ty) (old : Val) (x : Val × PI BsonP) :
    importValue BsonP.ops env cfg ty old (PI.init (BsonP.ofBytes info d)) ≠ .ok x :=
  import_never (BsonP.short_watch h info) (fun h => h rfl) env cfg ty old (.inl rfl) x

end Thors
