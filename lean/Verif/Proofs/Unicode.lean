import Verif.Model.Unicode
/-
Helper lemmas about the escape decoders: the in-place iterator copy equals a list function.
-/
namespace Thors

/-- Value of the first `n` characters read as hex digits on top of `acc`. -/
def hexL : Nat → Nat → Bytes → Res Nat
  | 0, acc, _ => .ok acc
  | _ + 1, _, [] => throwStd
  | n + 1, acc, c :: cs => do
    let d ← convertHexToDec c
    hexL n ((acc <<< 4) + d) cs

def surL (u : Nat) (t : Bytes) : Res (Bytes × Nat) :=
  match t with
  | c1 :: c2 :: t' =>
    if c1 ≠ 0x5C then throwStd else
    if c2 ≠ 0x75 then throwStd else do
    let lo ← hexL 4 0 t'
    let v := (u <<< 16) + lo
    if v &&& 0xFC00FC00 ≠ 0xD800DC00 then throwStd else
    let u := 0x00010000 ||| ((v &&& 0x03FF0000) >>> 6) ||| (v &&& 0x000003FF)
    return ([nb (0xF0 ||| ((u >>> 18) &&& 0x0F)),
             nb (0x80 ||| ((u >>> 12) &&& 0x3F)),
             nb (0x80 ||| ((u >>> 6) &&& 0x3F)),
             nb (0x80 ||| (u &&& 0x3F))], 6)
  | _ => throwStd

/-- bytes and number of characters consumed after the `u` -/
def uniL (t : Bytes) : Res (Bytes × Nat) := do
  let u ← hexL 4 0 t
  if u ≤ 0x7F then return ([nb (u &&& 0x7F)], 4)
  else if u ≤ 0x7FF then
    return ([nb (0xC0 ||| ((u >>> 6) &&& 0x1F)), nb (0x80 ||| (u &&& 0x3F))], 4)
  else if u ≤ 0xFFFF then
    if u &&& 0xFC00 ≠ 0xD800 then
      return ([nb (0xE0 ||| ((u >>> 12) &&& 0x0F)), nb (0x80 ||| ((u >>> 6) &&& 0x3F)),
               nb (0x80 ||| (u &&& 0x3F))], 4)
    else do
      let (o, k) ← surL u (t.drop 4)
      return (o, 4 + k)
  else throwStd

/-- The short escapes. -/
def shortEsc (r : Byte) : Option Byte :=
  if r = 0x22 then some 0x22
  else if r = 0x5C then some 0x5C
  else if r = 0x2F then some 0x2F
  else if r = 0x62 then some 0x08
  else if r = 0x66 then some 0x0C
  else if r = 0x6E then some 0x0A
  else if r = 0x72 then some 0x0D
  else if r = 0x74 then some 0x09
  else none

/-- Output and number of characters consumed after the first. -/
def stepL (c : Byte) (cs : Bytes) : Res (Bytes × Nat) :=
  if c < 0x20 then throwStd
  else if c ≠ 0x5C then .ok ([c], 0)
  else match cs with
    | [] => throwStd
    | r :: t =>
      match shortEsc r with
      | some b => .ok ([b], 1)
      | none =>
        if r = 0x75 then do
          let (o, k) ← uniL t
          return (o, 1 + k)
        else throwStd

def unesc (t : Bytes) : Res Bytes :=
  match t with
  | [] => .ok []
  | c :: cs => do
    let (o, k) ← stepL c cs
    let r ← unesc (cs.drop k)
    return o ++ r
termination_by t.length
decreasing_by simp; omega

theorem hexL_len {n acc t v} (h : hexL n acc t = .ok v) : n ≤ t.length := by
  induction n generalizing acc t with
  | zero => simp
  | succ n ih =>
    cases t with
    | nil => simp [hexL] at h
    | cons c cs =>
      simp only [hexL, Res.bind_eq_ok] at h
      obtain ⟨d, _, h⟩ := h
      have := ih h
      simp; omega

theorem convertHexToDec_lt {c d} (h : convertHexToDec c = .ok d) : d < 16 := by
  revert d
  refine forall_byte (P := fun c => ∀ {d}, convertHexToDec c = .ok d → d < 16) ?_ c
  intro i d
  unfold convertHexToDec
  split <;> rename_i h
  · intro h'; simp only [Res.ok.injEq] at h'; rw [UInt8.le_iff_toNat_le, UInt8.le_iff_toNat_le] at h; simp at h h'; omega
  split <;> rename_i h
  · intro h'; simp only [Res.ok.injEq] at h'; rw [UInt8.le_iff_toNat_le, UInt8.le_iff_toNat_le] at h; simp at h h'; omega
  split <;> rename_i h
  · intro h'; simp only [Res.ok.injEq] at h'; rw [UInt8.le_iff_toNat_le, UInt8.le_iff_toNat_le] at h; simp at h h'; omega
  simp

theorem convertHexToDec_ne_ub (c) : convertHexToDec c ≠ .ub := by
  unfold convertHexToDec
  split
  · simp
  split
  · simp
  split <;> simp

theorem hexL_lt {n acc t v} (h : hexL n acc t = .ok v) : v < (acc + 1) * 16 ^ n := by
  induction n generalizing acc t with
  | zero => simp [hexL] at h; omega
  | succ n ih =>
    cases t with
    | nil => simp [hexL] at h
    | cons c cs =>
      simp only [hexL, Res.bind_eq_ok] at h
      obtain ⟨d, hd, h⟩ := h
      have h1 := ih h
      have h2 := convertHexToDec_lt hd
      have : (acc <<< 4 + d + 1) ≤ (acc + 1) * 16 := by rw [Nat.shiftLeft_eq]; omega
      calc v < _ := h1
        _ ≤ ((acc + 1) * 16) * 16 ^ n := Nat.mul_le_mul_right _ this
        _ = _ := by rw [Nat.pow_succ, Nat.mul_assoc, Nat.mul_comm 16]

theorem rdBuf_drop {buf : Bytes} {i : Nat} (h : i ≤ buf.length) :
    rdBuf buf i = .ok ((buf.drop i).headD 0) := by
  unfold rdBuf
  split
  · rename_i h'
    rw [List.drop_eq_getElem_cons h']; simp [h']
  · have : i = buf.length := by omega
    simp [this]

theorem convertHexToDec_zero : convertHexToDec 0 = throwStd := by decide

theorem hexLoop_eq (buf : Bytes) (n iter acc : Nat) (h : iter ≤ buf.length) :
    UW.hexLoop buf n iter acc = (do let v ← hexL n acc (buf.drop iter); return (v, iter + n)) := by
  induction n generalizing iter acc with
  | zero => simp [UW.hexLoop, hexL]
  | succ n ih =>
    simp only [UW.hexLoop]
    rw [rdBuf_drop h]
    cases hd : buf.drop iter with
    | nil => simp [hexL, convertHexToDec_zero]
    | cons c cs =>
      have hlt : iter < buf.length := by
        have := congrArg List.length hd; simp at this; omega
      have hcs : buf.drop (iter + 1) = cs := by
        rw [← List.drop_drop, hd]; rfl
      simp only [hexL, Res.ok_bind, List.headD_cons]
      cases convertHexToDec c with
      | ok d =>
        simp only [Res.ok_bind]
        rw [ih _ _ hlt, hcs]
        simp [Nat.add_assoc, Nat.add_comm 1]
      | throw e => simp
      | ub => simp

theorem decodeSurrogatePairs_eq (buf : Bytes) (iter u : Nat) (h : iter ≤ buf.length) :
    UW.decodeSurrogatePairs buf iter u =
      (do let (o, k) ← surL u (buf.drop iter); return (o, iter + k)) := by
  unfold UW.decodeSurrogatePairs
  rw [rdBuf_drop h]
  cases hd : buf.drop iter with
  | nil => simp [surL]
  | cons c1 cs =>
    have hlt : iter < buf.length := by
      have := congrArg List.length hd; simp at this; omega
    have hcs : buf.drop (iter + 1) = cs := by
      rw [← List.drop_drop, hd]; rfl
    simp only [Res.ok_bind, List.headD_cons]
    by_cases h1 : c1 = 0x5C
    · subst h1
      simp only [ne_eq, not_true_eq_false, if_false]
      rw [rdBuf_drop hlt, hcs]
      cases cs with
      | nil => simp [surL]
      | cons c2 t =>
        have hlt2 : iter + 2 ≤ buf.length := by
          have := congrArg List.length hd; simp at this; omega
        have ht : buf.drop (iter + 2) = t := by
          rw [← List.drop_drop, hd]; rfl
        simp only [Res.ok_bind, List.headD_cons, surL]
        by_cases h2 : c2 = 0x75
        · subst h2
          simp only [ne_eq, not_true_eq_false, if_false]
          unfold UW.getUnicodeHex
          rw [hexLoop_eq _ _ _ _ hlt2, ht]
          cases hexL 4 0 t with
          | ok v =>
            simp only [Res.ok_bind, Res.pure_eq]
            split <;> simp
          | throw e => simp
          | ub => simp
        · simp [h2]
    · cases cs <;> simp [surL, h1]

theorem decodeUnicode_eq (buf : Bytes) (iter : Nat) (h : iter ≤ buf.length) :
    UW.decodeUnicode buf iter =
      (do let (o, k) ← uniL (buf.drop iter); return (o, iter + k)) := by
  unfold UW.decodeUnicode uniL UW.getUnicodeHex
  rw [hexLoop_eq _ _ _ _ h]
  cases hv : hexL 4 0 (buf.drop iter) with
  | ok u =>
    have hlen := hexL_len hv
    have hlt := hexL_lt hv
    simp only [List.length_drop] at hlen
    simp only [Res.ok_bind, Res.pure_eq]
    split
    · simp
    split
    · simp
    split
    · split
      · simp
      · rw [decodeSurrogatePairs_eq _ _ _ (by omega), List.drop_drop]
        cases surL u (buf.drop (iter + 4)) with
        | ok p => simp [Nat.add_assoc]
        | throw e => simp
        | ub => simp
    · omega
  | throw e => simp
  | ub => simp

theorem surL_out {u t o k} (h : surL u t = .ok (o, k)) : o.length = 4 ∧ k = 6 ∧ 6 ≤ t.length := by
  unfold surL at h
  split at h
  · rename_i c1 c2 t'
    split at h
    · simp at h
    split at h
    · simp at h
    simp only [Res.bind_eq_ok] at h
    obtain ⟨lo, hlo, h⟩ := h
    have := hexL_len hlo
    split at h
    · simp at h
    · simp at h; obtain ⟨rfl, rfl⟩ := h; simp; omega
  · simp at h

theorem uniL_out {t o k} (h : uniL t = .ok (o, k)) :
    0 < o.length ∧ o.length ≤ k ∧ k ≤ t.length := by
  simp only [uniL, Res.bind_eq_ok] at h
  obtain ⟨u, hu, h⟩ := h
  have hl := hexL_len hu
  split at h
  · simp at h; obtain ⟨rfl, rfl⟩ := h; simp; omega
  split at h
  · simp at h; obtain ⟨rfl, rfl⟩ := h; simp; omega
  split at h
  · split at h
    · simp at h; obtain ⟨rfl, rfl⟩ := h; simp; omega
    · simp only [Res.bind_eq_ok] at h
      obtain ⟨⟨o', k'⟩, hs, h⟩ := h
      have := surL_out hs
      simp only [List.length_drop] at this
      simp at h; obtain ⟨rfl, rfl⟩ := h; omega
  · simp at h

theorem stepL_out {c cs o k} (h : stepL c cs = .ok (o, k)) :
    0 < o.length ∧ o.length ≤ k + 1 ∧ k ≤ cs.length := by
  unfold stepL at h
  split at h
  · simp at h
  split at h
  · simp at h; obtain ⟨rfl, rfl⟩ := h; simp
  split at h
  · simp at h
  · split at h
    · simp at h; obtain ⟨rfl, rfl⟩ := h; simp
    · split at h
      · simp only [Res.bind_eq_ok] at h
        obtain ⟨⟨o', k'⟩, hs, h⟩ := h
        have := uniL_out hs
        simp at h; obtain ⟨rfl, rfl⟩ := h; simp; omega
      · simp at h

theorem bind_std {α β : Type} {x : Res α} {f : α → Res β}
    (hx : x = throwStd ∨ ∃ a, x = .ok a) (hf : ∀ a, x = .ok a → (f a = throwStd ∨ ∃ b, f a = .ok b)) :
    ((x >>= f) = throwStd ∨ ∃ b, (x >>= f) = .ok b) := by
  rcases hx with h | ⟨a, h⟩
  · simp [h]
  · rw [h]; exact hf a h

theorem convertHexToDec_std (c) : convertHexToDec c = throwStd ∨ ∃ d, convertHexToDec c = .ok d := by
  unfold convertHexToDec
  split
  · exact Or.inr ⟨_, rfl⟩
  split
  · exact Or.inr ⟨_, rfl⟩
  split
  · exact Or.inr ⟨_, rfl⟩
  · exact Or.inl rfl

theorem hexL_std (n acc t) : hexL n acc t = throwStd ∨ ∃ d, hexL n acc t = .ok d := by
  induction n generalizing acc t with
  | zero => simp [hexL]
  | succ n ih =>
    cases t with
    | nil => simp [hexL]
    | cons c cs => exact bind_std (convertHexToDec_std c) (fun _ _ => ih _ _)

theorem surL_std (u t) : surL u t = throwStd ∨ ∃ d, surL u t = .ok d := by
  unfold surL
  split
  · split
    · simp
    split
    · simp
    refine bind_std (hexL_std _ _ _) ?_
    intro a _
    by_cases h : (u <<< 16 + a) &&& 0xFC00FC00 ≠ 0xD800DC00
    · exact Or.inl (if_pos h)
    · exact Or.inr ⟨_, if_neg h⟩
  · exact Or.inl rfl

theorem uniL_std (t) : uniL t = throwStd ∨ ∃ d, uniL t = .ok d := by
  unfold uniL
  refine bind_std (hexL_std _ _ _) ?_
  intro a _
  split
  · simp
  split
  · simp
  split
  · split
    · simp
    · exact bind_std (surL_std _ _) (by simp)
  · simp

theorem stepL_std (c t) : stepL c t = throwStd ∨ ∃ d, stepL c t = .ok d := by
  unfold stepL
  split
  · simp
  split
  · simp
  split
  · simp
  split
  · simp
  split
  · exact bind_std (uniL_std _) (by simp)
  · simp

/-- The result of `operator*` at a fresh character in terms of `stepL`. -/
theorem checkBuffer_eq (buf : Bytes) (p : Nat) (c : Byte) (cs : Bytes) (hp : buf.drop p = c :: cs) :
    (∃ o k, stepL c cs = .ok (o, k) ∧
      ∃ b cont, UW.checkBuffer buf ⟨p + 1, [], 0, c⟩ = .ok (b, ⟨p + 1 + k, cont, 0, c⟩) ∧
        ((cont = [] ∧ o = [b]) ∨ (cont = o ∧ o.head? = some b)))
    ∨ (stepL c cs = throwStd ∧ UW.checkBuffer buf ⟨p + 1, [], 0, c⟩ = throwStd) := by
  have hlt : p < buf.length := by
    have := congrArg List.length hp; simp at this; omega
  have hcs : buf.drop (p + 1) = cs := by rw [← List.drop_drop, hp]; rfl
  unfold UW.checkBuffer stepL
  by_cases hc1 : c < 0x20
  · right; rw [if_pos hc1, if_pos hc1]; exact ⟨rfl, rfl⟩
  rw [if_neg hc1, if_neg hc1]
  by_cases hc2 : c ≠ 0x5C
  · left; rw [if_pos hc2, if_pos hc2]; exact ⟨[c], 0, rfl, c, [], rfl, Or.inl ⟨rfl, rfl⟩⟩
  · rw [if_neg hc2, if_neg hc2, rdBuf_drop hlt, hcs]
    cases cs with
    | nil => right; simp
    | cons r t =>
      have hlt2 : p + 2 ≤ buf.length := by
        have := congrArg List.length hp; simp at this; omega
      have ht : buf.drop (p + 2) = t := by rw [← List.drop_drop, hp]; rfl
      simp only [Res.ok_bind, List.headD_cons, shortEsc]
      by_cases h1 : r = 0x22
      · subst h1; exact Or.inl ⟨[_], 1, rfl, _, [], rfl, Or.inl ⟨rfl, rfl⟩⟩
      by_cases h2 : r = 0x5C
      · subst h2; exact Or.inl ⟨[_], 1, rfl, _, [], rfl, Or.inl ⟨rfl, rfl⟩⟩
      by_cases h3 : r = 0x2F
      · subst h3; exact Or.inl ⟨[_], 1, rfl, _, [], rfl, Or.inl ⟨rfl, rfl⟩⟩
      by_cases h4 : r = 0x62
      · subst h4; exact Or.inl ⟨[_], 1, rfl, _, [], rfl, Or.inl ⟨rfl, rfl⟩⟩
      by_cases h5 : r = 0x66
      · subst h5; exact Or.inl ⟨[_], 1, rfl, _, [], rfl, Or.inl ⟨rfl, rfl⟩⟩
      by_cases h6 : r = 0x6E
      · subst h6; exact Or.inl ⟨[_], 1, rfl, _, [], rfl, Or.inl ⟨rfl, rfl⟩⟩
      by_cases h7 : r = 0x72
      · subst h7; exact Or.inl ⟨[_], 1, rfl, _, [], rfl, Or.inl ⟨rfl, rfl⟩⟩
      by_cases h8 : r = 0x74
      · subst h8; exact Or.inl ⟨[_], 1, rfl, _, [], rfl, Or.inl ⟨rfl, rfl⟩⟩
      by_cases h9 : r = 0x75
      · subst h9
        simp only [if_neg h1, if_neg h2, if_neg h3, if_neg h4, if_neg h5, if_neg h6, if_neg h7, if_neg h8, if_true]
        rw [decodeUnicode_eq _ _ hlt2, ht]
        cases hu : uniL t with
        | ok x =>
          obtain ⟨o, k⟩ := x
          have := uniL_out hu
          cases o with
          | nil => simp at this
          | cons b o' => left; refine ⟨b :: o', 1 + k, by simp, b, b :: o', ?_, by simp⟩; simp [Nat.add_assoc]; omega
        | throw e =>
          have := uniL_std t
          rw [hu] at this
          simp at this
          right; simp [this]
        | ub => have := uniL_std t; simp [hu] at this
      · right; rw [if_neg h1, if_neg h2, if_neg h3, if_neg h4, if_neg h5, if_neg h6, if_neg h7, if_neg h8, if_neg h1, if_neg h2, if_neg h3, if_neg h4, if_neg h5, if_neg h6, if_neg h7, if_neg h8, if_neg h9]
        simp [h9]

/-- Writing out the pending bytes of a `\u` escape. -/
theorem copyLoop_emit (o : Bytes) (q : Nat) (c : Byte) :
    ∀ (m i f : Nat) (buf : Bytes) (out : Nat), m = o.length - i → i < o.length → q ≤ buf.length →
      out + m ≤ q →
      ∃ buf' : Bytes, UW.copyLoop (f + m) buf ⟨q, o, i, c⟩ out =
          UW.copyLoop f buf' ⟨q + 1, [], 0, (buf.drop q).headD 0⟩ (out + m) ∧
        buf'.length = buf.length ∧ buf'.drop q = buf.drop q ∧
        buf'.take (out + m) = buf.take out ++ o.drop i := by
  intro m
  induction m with
  | zero => intro i f buf out h1 h2; omega
  | succ m ih =>
    intro i f buf out h1 h2 hq ho
    have hlen : o.length ≠ 0 := by omega
    have hset : ∀ x, (buf.set out x).drop q = buf.drop q := by
      intro x; exact List.drop_set_of_lt (by omega)
    have e1 : UW.copyLoop (f + (m + 1)) buf ⟨q, o, i, c⟩ out =
        (do let w ← UW.incr (buf.set out (o.getD i 0)) ⟨q, o, i, c⟩
            UW.copyLoop (f + m) (buf.set out (o.getD i 0)) w (out + 1)) := by
      rw [← Nat.add_assoc, UW.copyLoop]
      rw [if_neg (by simp; omega)]
      simp only [UW.deref, if_neg hlen, if_pos h2, Res.ok_bind]
      rw [if_pos (by omega)]
    have htake : (buf.set out (o.getD i 0)).take (out + 1) = buf.take out ++ [o.getD i 0] := by
      rw [List.take_add_one]
      simp [List.take_set_of_le, show out < buf.length by omega]
    have hdrop : o.drop i = o.getD i 0 :: o.drop (i + 1) := by
      rw [List.drop_eq_getElem_cons h2]; simp [h2]
    by_cases hm : m = 0
    · subst hm
      refine ⟨buf.set out (o.getD i 0), ?_, by simp, hset _, ?_⟩
      · rw [e1]
        simp only [UW.incr, if_neg hlen]
        rw [if_pos (by omega), rdBuf_drop (by simpa using hq), hset]
        simp
      · rw [htake, hdrop]
        have : o.drop (i + 1) = [] := by simp; omega
        rw [this]
    · obtain ⟨buf', h3, h4, h5, h6⟩ := ih (i + 1) f (buf.set out (o.getD i 0)) (out + 1) (by omega) (by omega)
        (by simpa using hq) (by omega)
      refine ⟨buf', ?_, by simpa using h4, by rw [h5, hset], ?_⟩
      · rw [e1]
        simp only [UW.incr, if_neg hlen]
        rw [if_neg (by omega), Res.ok_bind, h3, hset]
        congr 1; omega
      · rw [show out + (m + 1) = out + 1 + m by omega, h6, htake, hdrop]; simp

theorem copyLoop_eq : ∀ (n : Nat) (t : Bytes), t.length ≤ n → ∀ (f : Nat) (buf : Bytes) (p out : Nat),
    buf.drop p = t → p ≤ buf.length → out ≤ p →
    (∃ o buf', unesc t = .ok o ∧
      UW.copyLoop (f + t.length + 1) buf ⟨p + 1, [], 0, t.headD 0⟩ out = .ok (buf', out + o.length) ∧
      buf'.take (out + o.length) = buf.take out ++ o) ∨
    (unesc t = throwStd ∧ UW.copyLoop (f + t.length + 1) buf ⟨p + 1, [], 0, t.headD 0⟩ out = throwStd) := by
  intro n
  induction n with
  | zero =>
    intro t ht f buf p out hp hpl hop
    have : t = [] := by simpa using ht
    subst this
    have : p = buf.length := by simp at hp; omega
    left
    refine ⟨[], buf, by simp [unesc], ?_, by simp⟩
    rw [UW.copyLoop, if_pos (by simp [this])]; simp
  | succ n ih =>
    intro t ht f buf p out hp hpl hop
    cases t with
    | nil =>
      have : p = buf.length := by simp at hp; omega
      left
      refine ⟨[], buf, by simp [unesc], ?_, by simp⟩
      rw [UW.copyLoop, if_pos (by simp [this])]; simp
    | cons c cs =>
      have hlt : p < buf.length := by
        have := congrArg List.length hp; simp at this; omega
      have hlen : cs.length = buf.length - p - 1 := by
        have := congrArg List.length hp; simp at this; omega
      rcases checkBuffer_eq buf p c cs hp with ⟨o, k, hs, b, cont, hcb, hcont⟩ | ⟨hs, hcb⟩
      · have hso := stepL_out hs
        have hq : p + 1 + k ≤ buf.length := by omega
        have hdq : buf.drop (p + 1 + k) = cs.drop k := by
          rw [← List.drop_drop, ← List.drop_drop, hp]; rfl
        -- one item
        have hone : ∃ buf' : Bytes, UW.copyLoop (f + (k + 1 - o.length) + (cs.drop k).length + 1 + o.length) buf ⟨p + 1, [], 0, c⟩ out =
            UW.copyLoop (f + (k + 1 - o.length) + (cs.drop k).length + 1) buf' ⟨p + 1 + k + 1, [], 0, (cs.drop k).headD 0⟩ (out + o.length) ∧
            buf'.length = buf.length ∧ buf'.drop (p + 1 + k) = cs.drop k ∧
            buf'.take (out + o.length) = buf.take out ++ o := by
          rcases hcont with ⟨rfl, rfl⟩ | ⟨rfl, hb⟩
          · refine ⟨buf.set out b, ?_, by simp, ?_, ?_⟩
            · rw [List.length_singleton, UW.copyLoop]
              rw [if_neg (by simp; omega)]
              simp only [UW.deref, List.length_nil, if_true, hcb, Res.ok_bind]
              rw [if_pos (by omega)]
              simp only [UW.incr, List.length_nil, if_true]
              rw [rdBuf_drop (by simpa using hq), List.drop_set_of_lt (by omega), hdq]
              simp
            · rw [List.drop_set_of_lt (by omega), hdq]
            · rw [List.length_singleton, List.take_add_one]
              simp [List.take_set_of_le, show out < buf.length by omega]
          · obtain ⟨buf', h3, h4, h5, h6⟩ := copyLoop_emit cont (p + 1 + k) c cont.length 0
              (f + (k + 1 - cont.length) + (cs.drop k).length + 1) buf out (by omega) (by omega) hq (by omega)
            refine ⟨buf', ?_, h4, by rw [h5, hdq], by simpa using h6⟩
            rw [hdq] at h3
            rw [← h3]
            obtain ⟨m, hm⟩ : ∃ m, cont.length = m + 1 := ⟨cont.length - 1, by omega⟩
            rw [hm, ← Nat.add_assoc, UW.copyLoop, UW.copyLoop]
            rw [if_neg (by simp; omega), if_neg (by simp; omega)]
            have hc0 : cont.getD 0 0 = b := by
              cases cont with
              | nil => simp at hm
              | cons x xs => simpa using hb
            simp only [UW.deref, List.length_nil, if_true, hcb, hm, Nat.zero_lt_succ, hc0, Nat.succ_ne_zero, if_false]
        obtain ⟨buf', h3, h4, h5, h6⟩ := hone
        have hfuel : f + (k + 1 - o.length) + (cs.drop k).length + 1 + o.length = f + (c :: cs).length + 1 := by
          simp; omega
        rw [hfuel] at h3
        rw [List.headD_cons, h3, unesc, hs]
        have hrec := ih (cs.drop k) (by simp at ht ⊢; omega) (f + (k + 1 - o.length)) buf' (p + 1 + k) (out + o.length)
          h5 (by omega) (by omega)
        rcases hrec with ⟨o2, b2, hu, hc2, ht2⟩ | ⟨hu, hc2⟩
        · left
          refine ⟨o ++ o2, b2, by simp [hu], by rw [hc2]; simp [Nat.add_assoc], ?_⟩
          rw [List.length_append, ← Nat.add_assoc, ht2, h6]; simp
        · right
          refine ⟨by simp [hu], hc2⟩
      · right
        constructor
        · rw [unesc, hs]; rfl
        · rw [UW.copyLoop, if_neg (by simp; omega)]
          simp only [UW.deref, List.length_nil, if_true, List.headD_cons, hcb, Res.throw_bind]

/-- In-place decoding is the list function `unesc`. -/
theorem unescapeInPlace_eq (t : Bytes) : unescapeInPlace t = unesc t := by
  unfold unescapeInPlace UW.start
  rw [rdBuf_drop (Nat.zero_le _)]
  simp only [List.drop_zero, Res.ok_bind, Res.pure_eq]
  have := copyLoop_eq t.length t (Nat.le_refl _) 0 t 0 0 rfl (Nat.zero_le _) (Nat.le_refl _)
  simp only [Nat.zero_add] at this
  rcases this with ⟨o, b, h1, h2, h3⟩ | ⟨h1, h2⟩
  · rw [h2, h1]; simpa using h3
  · rw [h2, h1]; rfl

/-! ### the same copy into fresh storage -/

theorem copyFresh_emit (o : Bytes) (q : Nat) (c : Byte) (src : Bytes) (hq : q ≤ src.length) :
    ∀ (m i f : Nat) (out : Bytes), m = o.length - i → i < o.length →
      UW.copyFresh (f + m) src ⟨q, o, i, c⟩ out =
          UW.copyFresh f src ⟨q + 1, [], 0, (src.drop q).headD 0⟩ (out ++ o.drop i) := by
  intro m
  induction m with
  | zero => intro i f out h1 h2; omega
  | succ m ih =>
    intro i f out h1 h2
    have hlen : o.length ≠ 0 := by omega
    have hdrop : o.drop i = o.getD i 0 :: o.drop (i + 1) := by
      rw [List.drop_eq_getElem_cons h2]; simp [h2]
    rw [← Nat.add_assoc, UW.copyFresh, if_neg (by simp; omega)]
    simp only [UW.deref, if_neg hlen, if_pos h2, Res.ok_bind, UW.incr]
    by_cases hm : m = 0
    · subst hm
      rw [if_pos (by omega), rdBuf_drop hq]
      have : o.drop (i + 1) = [] := by simp; omega
      simp [hdrop, this]
    · rw [if_neg (by omega), Res.ok_bind, ih (i + 1) f _ (by omega) (by omega), hdrop]
      simp

theorem copyFresh_eq (src : Bytes) : ∀ (n : Nat) (t : Bytes), t.length ≤ n → ∀ (f : Nat) (p : Nat) (out : Bytes),
    src.drop p = t → p ≤ src.length →
    UW.copyFresh (f + t.length + 1) src ⟨p + 1, [], 0, t.headD 0⟩ out =
      (do let o ← unesc t; return out ++ o) := by
  intro n
  induction n with
  | zero =>
    intro t ht f p out hp hpl
    have : t = [] := by simpa using ht
    subst this
    have : p = src.length := by simp at hp; omega
    rw [UW.copyFresh, if_pos (by simp [this])]; simp [unesc]
  | succ n ih =>
    intro t ht f p out hp hpl
    cases t with
    | nil =>
      have : p = src.length := by simp at hp; omega
      rw [UW.copyFresh, if_pos (by simp [this])]; simp [unesc]
    | cons c cs =>
      have hlt : p < src.length := by
        have := congrArg List.length hp; simp at this; omega
      have hlen : cs.length = src.length - p - 1 := by
        have := congrArg List.length hp; simp at this; omega
      rcases checkBuffer_eq src p c cs hp with ⟨o, k, hs, b, cont, hcb, hcont⟩ | ⟨hs, hcb⟩
      · have hso := stepL_out hs
        have hq : p + 1 + k ≤ src.length := by omega
        have hdq : src.drop (p + 1 + k) = cs.drop k := by
          rw [← List.drop_drop, ← List.drop_drop, hp]; rfl
        have hone : UW.copyFresh (f + (k + 1 - o.length) + (cs.drop k).length + 1 + o.length) src ⟨p + 1, [], 0, c⟩ out =
            UW.copyFresh (f + (k + 1 - o.length) + (cs.drop k).length + 1) src ⟨p + 1 + k + 1, [], 0, (cs.drop k).headD 0⟩ (out ++ o) := by
          rcases hcont with ⟨rfl, rfl⟩ | ⟨rfl, hb⟩
          · rw [List.length_singleton, UW.copyFresh, if_neg (by simp; omega)]
            simp only [UW.deref, List.length_nil, if_true, hcb, Res.ok_bind, UW.incr]
            rw [rdBuf_drop hq, hdq]
            simp
          · have h3 := copyFresh_emit cont (p + 1 + k) c src hq cont.length 0
              (f + (k + 1 - cont.length) + (cs.drop k).length + 1) out (by omega) (by omega)
            rw [hdq, List.drop_zero] at h3
            rw [← h3]
            obtain ⟨m, hm⟩ : ∃ m, cont.length = m + 1 := ⟨cont.length - 1, by omega⟩
            rw [hm, ← Nat.add_assoc, UW.copyFresh, UW.copyFresh]
            rw [if_neg (by simp; omega), if_neg (by simp; omega)]
            have hc0 : cont.getD 0 0 = b := by
              cases cont with
              | nil => simp at hm
              | cons x xs => simpa using hb
            simp only [UW.deref, List.length_nil, if_true, hcb, hm, Nat.zero_lt_succ, hc0, Nat.succ_ne_zero, if_false]
        have hfuel : f + (k + 1 - o.length) + (cs.drop k).length + 1 + o.length = f + (c :: cs).length + 1 := by
          simp; omega
        rw [hfuel] at hone
        rw [List.headD_cons, hone, unesc, hs, ih (cs.drop k) (by simp at ht ⊢; omega) _ _ _ hdq hq]
        cases hu : unesc (cs.drop k) <;> simp [hu]
      · rw [UW.copyFresh, if_neg (by simp; omega), unesc, hs]
        simp only [UW.deref, List.length_nil, if_true, List.headD_cons, hcb, Res.throw_bind]

theorem unescapeFresh_eq (t : Bytes) : unescapeFresh t = unesc t := by
  unfold unescapeFresh UW.start
  rw [rdBuf_drop (Nat.zero_le _)]
  simp only [List.drop_zero, Res.ok_bind, Res.pure_eq]
  have := copyFresh_eq t t.length t (Nat.le_refl _) 0 0 [] rfl (Nat.zero_le _)
  simp only [Nat.zero_add] at this
  rw [this]
  cases unesc t <;> simp

end Thors
