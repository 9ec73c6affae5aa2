import Verif.Proofs.Lax1
/-
The scalars and keys the JSON lexer reads or skips in an arbitrary text.
-/
namespace Thors
open Spec StrIn

/-- A text of the kind `R` has been read; or the text has come to its end too early, which shows in the state of the input if `top`. -/
def Took (D pre : Bytes) (top : Prop) (R : Bytes → Prop) (i : StrIn) : Prop :=
  (∃ tok post, R tok ∧ Here D (pre ++ tok) post i) ∨ (i.data = D ∧ D.length ≤ i.pos ∧ (top → i.good = false))

theorem Took.mono {D pre : Bytes} {top : Prop} {R R' : Bytes → Prop} {i : StrIn} (h : Took D pre top R i) (hr : ∀ t, R t → R' t) : Took D pre top R' i := by
  rcases h with ⟨tok, post, h1, h2⟩ | h
  · exact .inl ⟨tok, post, hr _ h1, h2⟩
  · exact .inr h

theorem digits_of {t : Bytes} (h : t ≠ []) (hd : ∀ c ∈ t, isDigit c = true) : Digits t := ⟨_, dec_iff.2 ⟨h, hd, rfl⟩⟩

theorem take_digits (t : Bytes) : t.take (digitPrefix t).length = digitPrefix t ∧ (digitPrefix t).length ≤ t.length := by
  obtain ⟨h, -⟩ := digitPrefix_split t
  have ⟨r, e⟩ : ∃ r, t = digitPrefix t ++ r := ⟨_, h⟩
  clear h
  generalize digitPrefix t = d at e ⊢
  subst e
  simp

/-! ### integers -/

theorem fromChars_lax {k : IntKind} {bs : Bytes} {n : Nat} {i : Int} (h : fromChars k bs = .value n i) :
    n ≤ bs.length ∧ ∃ ds, Digits ds ∧ (bs.take n = ds ∨ (k.signed = true ∧ bs.take n = 0x2D :: ds)) := by
  unfold fromChars at h
  split at h
  · next c cs =>
    split at h
    · next hc =>
      dsimp only at h
      split at h
      · cases h
      · next hd =>
        split at h
        · cases h
          obtain ⟨h1, h2⟩ := take_digits cs
          refine ⟨by simp; omega, _, digits_of hd (digitPrefix_split cs).2, .inr ⟨hc.2, ?_⟩⟩
          rw [List.take_succ_cons, h1, hc.1]
        · cases h
    · dsimp only at h
      split at h
      · cases h
      · next hd =>
        split at h
        · cases h
          obtain ⟨h1, h2⟩ := take_digits (c :: cs)
          exact ⟨h2, _, digits_of hd (digitPrefix_split (c :: cs)).2, .inl h1⟩
        · cases h
  · cases h

theorem Here.peek {D pre post : Bytes} {i : StrIn} (h : Here D pre post i) : i.peek = match post with | c :: _ => sext c | [] => EOFv := by
  obtain ⟨rfl, e⟩ := h
  unfold StrIn.peek
  cases post with
  | nil => rw [if_neg (by simp [e])]
  | cons c r => simp [e]

theorem sext_zero (c : Byte) : (sext c = 0x30 ↔ c = 0x30) ∧ ((sext c ≥ 0x31 ∧ sext c ≤ 0x39) ↔ (isDigit c = true ∧ c ≠ 0x30)) := by
  refine forall_byte (P := fun c => (sext c = 0x30 ↔ c = 0x30) ∧ ((sext c ≥ 0x31 ∧ sext c ≤ 0x39) ↔ (isDigit c = true ∧ c ≠ 0x30))) ?_ c
  decide +kernel

theorem checkZero_lax {D pre post : Bytes} {i : StrIn} (h : Here D pre post i) :
    Yields (fun i' => Here D pre post i' ∧ NoZero post) (checkZero i) := by
  unfold checkZero
  have hp := h.peek
  cases post with
  | nil =>
    dsimp only at hp
    rw [if_neg (by rw [hp]; decide)]
    exact .ok ⟨h, by rintro ⟨d, r, e, -⟩; cases e⟩
  | cons c r =>
    dsimp only at hp
    by_cases hc : c = 0x30
    · rw [if_pos (by rw [hp]; exact (sext_zero c).1.2 hc)]
      obtain ⟨-, hg⟩ := h.get
      dsimp only
      split
      · exact .throwStd
      · next hn =>
        refine .ok ⟨hg.unget, ?_⟩
        rintro ⟨d, r', e, h1, h2⟩
        rw [hg.peek] at hn
        cases r with
        | nil => cases e
        | cons d' r2 =>
          cases e
          exact hn ((sext_zero d).2.2 ⟨h1, h2⟩)
    · rw [if_neg (by rw [hp]; exact fun e => hc ((sext_zero c).1.1 e))]
      exact .ok ⟨h, by rintro ⟨d, r, e, -⟩; cases e; exact hc rfl⟩

theorem noZero_take {t : Bytes} (h : NoZero t) (n : Nat) : NoZero (t.take n) := by
  rintro ⟨d, r, e, h1, h2⟩
  refine h ⟨d, r ++ t.drop n, ?_, h1, h2⟩
  conv => lhs; rw [← List.take_append_drop n t, e]
  rfl

theorem Here.take {D pre post : Bytes} {i : StrIn} {n : Nat} (h : Here D pre post i) (hn : n ≤ post.length) :
    Here D (pre ++ post.take n) (post.drop n) { i with pos := i.pos + n, good := decide (i.pos + n ≤ i.data.length) } := by
  refine Here.fwd ?_ (by simp [hn])
  rwa [List.take_append_drop]

theorem scanInt_lax {D pre post : Bytes} {l : Lexer} (top : Prop) (k : IntKind) (h : Here D pre post l.inp) :
    Yields (fun x => Took D pre top (WholeText k.signed) x.2.inp) (l.scanInt k) := by
  unfold Lexer.scanInt readIntValue
  refine Yields.bind (P := fun x => ∀ i, x.1.2 = some i → Took D pre top (WholeText k.signed) x.2) ?_ ?_
  · refine (checkZero_lax h).bind fun i ⟨hi, hz⟩ => Yields.bind (P := fun x => ∀ i, x.1.2 = some i → Took D pre top (WholeText k.signed) x.2) ?_ ?_
    · unfold StrIn.readInt
      split
      · exact .ub
      split
      · exact .ok fun i e => by cases e
      · exact .ok fun i e => by cases e
      · next n j hf =>
        have hr : i.data.drop i.pos = post := hi.rest
        rw [hr] at hf
        obtain ⟨h1, h2⟩ := fromChars_lax hf
        exact .ok fun _ _ => .inl ⟨_, _, ⟨noZero_take hz n, h2⟩, hi.take h1⟩
    · rintro ⟨⟨ok, v⟩, s⟩ hs
      exact .ok hs
  · rintro ⟨⟨ok, v⟩, s⟩ hs
    dsimp only at hs ⊢
    split
    · exact .throwStd
    · split
      · next i => exact .ok (hs i rfl)
      · exact .ub

/-! ### floating point numbers -/

theorem scanFrac_lax (u : Bytes) : (scanFrac u).1 ≤ u.length ∧ ((u.take (scanFrac u).1 = [] ∧ (scanFrac u).2 = []) ∨
    (u.take (scanFrac u).1 = 0x2E :: (scanFrac u).2 ∧ ∀ c ∈ (scanFrac u).2, isDigit c = true)) := by
  unfold scanFrac
  split
  · next c cs =>
    split
    · next hc =>
      obtain ⟨h1, h2⟩ := take_digits cs
      refine ⟨by simp; omega, .inr ⟨?_, (digitPrefix_split cs).2⟩⟩
      rw [Nat.add_comm, List.take_succ_cons, h1, hc]
    · exact ⟨by simp, .inl ⟨by simp, rfl⟩⟩
  · exact ⟨by simp, .inl ⟨by simp, rfl⟩⟩

theorem scanExpo_lax (u : Bytes) : (scanExpo u).1 ≤ u.length ∧ Expo (u.take (scanExpo u).1) := by
  unfold scanExpo
  split
  · next c cs =>
    split
    · next hc =>
      split
      · next s ds =>
        obtain ⟨h1, h2⟩ := take_digits ds
        obtain ⟨h3, h4⟩ := take_digits (s :: ds)
        split
        · next hs =>
          split
          · exact ⟨by simp, .inl (by simp)⟩
          · next hd =>
            refine ⟨by simp; omega, .inr ⟨c, [0x2D], digitPrefix ds, hc, by simp, digits_of hd (digitPrefix_split ds).2, ?_⟩⟩
            dsimp only
            rw [Nat.add_comm, List.take_succ_cons, List.take_succ_cons, h1, hs]
            rfl
        split
        · next hs =>
          split
          · exact ⟨by simp, .inl (by simp)⟩
          · next hd =>
            refine ⟨by simp; omega, .inr ⟨c, [0x2B], digitPrefix ds, hc, by simp, digits_of hd (digitPrefix_split ds).2, ?_⟩⟩
            dsimp only
            rw [Nat.add_comm, List.take_succ_cons, List.take_succ_cons, h1, hs]
            rfl
        · split
          · exact ⟨by simp, .inl (by simp)⟩
          · next hd =>
            refine ⟨?_, .inr ⟨c, [], digitPrefix (s :: ds), hc, by simp, digits_of hd (digitPrefix_split (s :: ds)).2, ?_⟩⟩
            · simp only [List.length_cons] at h4 ⊢; omega
            · dsimp only
              rw [Nat.add_comm, List.take_succ_cons, h3]
              rfl
      · exact ⟨by simp, .inl (by simp)⟩
    · exact ⟨by simp, .inl (by simp)⟩
  · exact ⟨by simp, .inl (by simp)⟩

theorem scanDecimal_lax {bs : Bytes} {len n : Nat} {k : Int} (h : scanDecimal bs = some (len, n, k)) : len ≤ bs.length ∧ LooseDecimal (bs.take len) := by
  unfold scanDecimal at h
  dsimp only at h
  split at h
  · cases h
  · next hd =>
    have hf := scanFrac_lax (bs.drop (digitPrefix bs).length)
    have he := scanExpo_lax (bs.drop ((digitPrefix bs).length + (scanFrac (bs.drop (digitPrefix bs).length)).1))
    obtain ⟨h1, h2⟩ := take_digits bs
    have h3 := (digitPrefix_split bs).2
    generalize scanFrac (bs.drop (digitPrefix bs).length) = F at *
    obtain ⟨lf, fs⟩ := F
    dsimp only at *
    generalize scanExpo (bs.drop ((digitPrefix bs).length + lf)) = E at *
    obtain ⟨le, e⟩ := E
    dsimp only at *
    cases h
    have hl1 := hf.1
    have hl2 := he.1
    simp only [List.length_drop] at hl1 hl2
    refine ⟨by omega, digitPrefix bs, (bs.drop (digitPrefix bs).length).take lf, (bs.drop ((digitPrefix bs).length + lf)).take le, ?_, ?_, ?_, he.2, ?_⟩
    · by_cases hz : digitPrefix bs = []
      · exact .inl hz
      · exact .inr (digits_of hz h3)
    · rcases hf.2 with ⟨h, -⟩ | ⟨h, h'⟩
      · exact .inl h
      · refine .inr ⟨fs, ?_, h⟩
        by_cases hz : fs = []
        · exact .inl hz
        · exact .inr (digits_of hz h')
    · by_cases hz : digitPrefix bs = []
      · rcases hf.2 with ⟨-, h⟩ | ⟨h, h'⟩
        · exact absurd ⟨hz, h⟩ hd
        · refine .inr ⟨fs, digits_of (fun h0 => hd ⟨hz, h0⟩) h', h⟩
      · exact .inl (digits_of hz h3)
    · rw [List.take_add, List.take_add, h1]

theorem scanSpecial_lax {neg : Bool} {bs : Bytes} {len : Nat} {x : Flt} (h : scanSpecial neg bs = some (len, x)) : len ≤ bs.length ∧ SpecialText (bs.take len) := by
  have key : ∀ (n : Nat) (w : Bytes), (bs.take n).map lower = w → w.length = n → n ≤ bs.length := by
    intro n w e hw
    have := congrArg List.length e
    simp at this
    omega
  unfold scanSpecial at h
  split at h
  · next e => cases h; exact ⟨key _ _ e rfl, .inl e⟩
  split at h
  · next e => cases h; exact ⟨key _ _ e rfl, .inr (.inl e)⟩
  split at h
  · next e => cases h; exact ⟨key _ _ e rfl, .inr (.inr e)⟩
  · cases h

theorem fromCharsU_lax {f : FKind} {neg : Bool} {l n : Nat} {bs : Bytes} {x : Flt} (h : fromCharsU f neg l bs = .value n x) :
    ∃ m, n = l + m ∧ m ≤ bs.length ∧ (LooseDecimal (bs.take m) ∨ SpecialText (bs.take m)) := by
  unfold fromCharsU at h
  split at h
  · next len _ _ hs =>
    split at h
    · cases h; exact ⟨len, rfl, (scanDecimal_lax hs).1, .inl (scanDecimal_lax hs).2⟩
    · cases h
  · split at h
    · next len _ hs => cases h; exact ⟨len, rfl, (scanSpecial_lax hs).1, .inr (scanSpecial_lax hs).2⟩
    · cases h

theorem fromCharsF_lax {f : FKind} {n : Nat} {bs : Bytes} {x : Flt} (h : fromCharsF f bs = .value n x) :
    n ≤ bs.length ∧ ∃ u, (LooseDecimal u ∨ SpecialText u) ∧ (bs.take n = u ∨ bs.take n = 0x2D :: u) := by
  unfold fromCharsF at h
  split at h
  · next c cs =>
    split at h
    · next hc =>
      obtain ⟨m, rfl, h1, h2⟩ := fromCharsU_lax h
      refine ⟨by simp; omega, cs.take m, h2, .inr ?_⟩
      rw [Nat.add_comm, List.take_succ_cons, hc]
    · obtain ⟨m, rfl, h1, h2⟩ := fromCharsU_lax h
      rw [Nat.zero_add]
      exact ⟨h1, _, h2, .inl rfl⟩
  · cases h

theorem scanFlt_lax {D pre post : Bytes} {l : Lexer} (top : Prop) (f : FKind) (h : Here D pre post l.inp) :
    Yields (fun x => Took D pre top RealText x.2.inp) (l.scanFlt f) := by
  unfold Lexer.scanFlt readFltValue
  refine Yields.bind (P := fun x => ∀ i, x.1.2 = some i → Took D pre top RealText x.2) ?_ ?_
  · refine (checkZero_lax h).bind fun i ⟨hi, hz⟩ => ?_
    unfold StrIn.readFlt
    split
    · exact .ub
    split
    · exact .ok fun i e => by cases e
    · exact .ok fun i e => by cases e
    · next n j hf =>
      have hr : i.data.drop i.pos = post := hi.rest
      rw [hr] at hf
      obtain ⟨h1, h2⟩ := fromCharsF_lax hf
      exact .ok fun _ _ => .inl ⟨_, _, ⟨noZero_take hz n, h2⟩, hi.take h1⟩
  · rintro ⟨⟨ok, v⟩, s⟩ hs
    dsimp only at hs ⊢
    split
    · exact .throwStd
    · split
      · next i => exact .ok (hs i rfl)
      · exact .ub

/-! ### strings -/

theorem splitQuote_enclosed : ∀ (t : Bytes) (e : Bool) (b p : Bytes), splitQuote e t = some (b, p) →
    (e = false → Enclosed b) ∧ (e = true → ∃ c b', b = c :: b' ∧ Enclosed b')
  | [], e, b, p, h => by simp [splitQuote] at h
  | c :: cs, true, b, p, h => by
    simp only [splitQuote, Option.map_eq_some_iff] at h
    obtain ⟨⟨b', p'⟩, h1, h2⟩ := h
    cases h2
    exact ⟨by simp, fun _ => ⟨c, b', rfl, (splitQuote_enclosed cs false b' p' h1).1 rfl⟩⟩
  | c :: cs, false, b, p, h => by
    simp only [splitQuote] at h
    split at h
    · cases h; exact ⟨fun _ => .nil, by simp⟩
    · next hq =>
      simp only [Option.map_eq_some_iff] at h
      obtain ⟨⟨b', p'⟩, h1, h2⟩ := h
      cases h2
      refine ⟨fun _ => ?_, by simp⟩
      obtain ⟨h3, h4⟩ := splitQuote_enclosed cs _ b' p' h1
      by_cases hc : c = 0x5C
      · obtain ⟨d, b2, rfl, h5⟩ := h4 (by simpa using hc)
        rw [hc]
        exact .esc h5
      · exact .plain hq hc (h3 (by simpa using hc))

/-- The text of a string does not depend on what surrogate pairs mean. -/
theorem body_retag {pr pr' : Nat → Nat → Bytes} {b o : Bytes} (h : Body pr b o) : ∃ o', Body pr' b o' := by
  induction h with
  | nil => exact ⟨_, .nil⟩
  | basic h _ ih => obtain ⟨o', h'⟩ := ih; exact ⟨_, .basic h h'⟩
  | pair h _ ih => obtain ⟨o', h'⟩ := ih; exact ⟨_, .pair h h'⟩

theorem getStringInto_lax {D pre post : Bytes} {l : Lexer} (top : Prop) (h : Here D pre post l.inp) :
    Yields (fun x => Took D pre top (StrText l.convertBackSlash) x.2.inp) l.getStringInto := by
  cases post with
  | nil =>
    unfold Lexer.getStringInto
    have hg := h.get_end.1
    generalize l.inp.get = g at hg ⊢
    obtain ⟨n, s⟩ := g
    dsimp only at hg ⊢
    subst hg
    exact .throwStd
  | cons c t =>
    by_cases hq : c = 0x22
    · subst hq
      cases hsp : splitQuote false t with
      | none =>
        rcases getStringInto_none l t h.good h.rest hsp with h1 | ⟨v1, h1⟩
        · rw [h1]; exact .throwStd
        · rw [h1]
          exact .ok (.inr ⟨h.data, by simp [h.data], fun _ => rfl⟩)
      | some p =>
        obtain ⟨body, post⟩ := p
        rw [getStringInto_found l _ _ _ h.good h.rest hsp]
        have he := splitQuote_eq hsp
        have hH : Here D (pre ++ ([0x22] ++ body ++ [0x22])) post { l.inp with pos := l.inp.pos + (body.length + 2), good := true } := by
          subst he
          obtain ⟨e, e2⟩ := h
          refine ⟨?_, by rw [e2]; simp⟩
          rw [e]; simp
        refine Yields.bind (P := fun _ => StrText l.convertBackSlash ([0x22] ++ body ++ [0x22])) ?_ fun v hv => .ok (.inl ⟨_, _, hv, hH⟩)
        unfold StrText
        split
        · next hc =>
          intro o ho
          rw [unescapeInPlace_eq] at ho
          obtain ⟨o', ho'⟩ := body_retag (pr' := rfcPair) (unesc_ok_body _ _ _ post (Nat.le_refl _) (splitQuote_suffix hsp post) ho)
          exact ⟨body, o', ho', rfl⟩
        · exact .ok ⟨body, (splitQuote_enclosed _ _ _ _ hsp).1 rfl, rfl⟩
    · unfold Lexer.getStringInto
      have hg := h.get.1
      generalize l.inp.get = g at hg ⊢
      obtain ⟨n, s⟩ := g
      dsimp only at hg ⊢
      subst hg
      rw [if_pos (by rw [toChar_sext]; exact hq)]
      exact .throwStd

/-! ### literals -/

theorem checkFixed_lax {D pre post : Bytes} {l : Lexer} {check : Bytes} (top : Prop) (ht : top → l.buffer = []) (hz : check ≠ [] ∧ ∀ c ∈ check, c ≠ 0) (h : Here D pre post l.inp) :
    Yields (fun l' => Took D pre top (fun t => t = check) l'.inp) (l.checkFixed check) := by
  unfold Lexer.checkFixed
  have hp : l.inp.pos ≤ l.inp.data.length := by rw [h.pos, h.data, h.2]; simp
  have hr : l.inp.data.drop l.inp.pos = post := h.rest
  unfold StrIn.read
  dsimp only
  rw [if_neg (by omega), hr]
  simp only [Res.ok_bind]
  split
  · next hb =>
    refine .ok ?_
    by_cases hl : check.length ≤ post.length
    · left
      refine ⟨post.take check.length, post.drop check.length, ?_, ?_⟩
      · have := congrArg (List.take check.length) hb
        rw [List.take_append_of_le_length (by simp; omega), List.take_take, Nat.min_self, List.take_length] at this
        exact this
      · have := h.take hl
        simp only [List.length_take, Nat.min_eq_left hl]
        exact this
    · right
      refine ⟨h.data, ?_, ?_⟩
      · simp only [List.length_take]
        rw [h.pos, h.2]; simp; omega
      · intro hT
        exfalso
        rw [ht hT] at hb
        have h0 : (0 : Byte) ∈ check := by
          rw [← hb]
          refine List.mem_append_right _ ?_
          simp only [List.take_nil, List.nil_append, List.length_nil, Nat.sub_zero, List.drop_replicate]
          refine List.mem_replicate.2 ⟨?_, rfl⟩
          simp only [List.length_take]
          omega
        exact hz.2 _ h0 rfl
  · exact .throwStd

theorem getLastBool_lax {D pre post : Bytes} {l : Lexer} (top : Prop) (ht : top → l.buffer = []) (h : Here D pre post l.inp) :
    Yields (fun x => Took D pre top (fun t => t = b!"true" ∨ t = b!"false") x.2.inp) l.getLastBool := by
  unfold Lexer.getLastBool
  split
  · exact .ub
  · exact (checkFixed_lax top ht (by decide) h).bind fun l' hl => .ok (hl.mono fun t e => .inl e)
  · exact (checkFixed_lax top ht (by decide) h).bind fun l' hl => .ok (hl.mono fun t e => .inr e)
  · exact .throwStd

/-- Some characters are passed over. -/
theorem ignore_lax {D pre post : Bytes} {i : StrIn} (top : Prop) (n : Nat) (h : Here D pre post i) :
    Took D pre top (fun t => t = post.take n ∧ n ≤ post.length) (i.ignore n) := by
  unfold StrIn.ignore
  by_cases hl : n ≤ post.length
  · exact .inl ⟨_, _, ⟨rfl, hl⟩, h.take hl⟩
  · right
    have : i.data.length = i.pos + post.length := by rw [h.pos, h.data, h.2]; simp
    refine ⟨h.data, ?_, fun _ => ?_⟩
    · dsimp only; rw [← h.data]; omega
    · simp; omega

/-! ### skipping -/

/-- `next` is the character behind `pre`, and the input stands behind it. -/
def GotAt (D pre : Bytes) (next : Int) (s : StrIn) : Prop :=
  (∃ c post, next = sext c ∧ Here D (pre ++ [c]) post s) ∨ (next = EOFv ∧ Here D pre [] s)

theorem Here.got {D pre post : Bytes} {i : StrIn} (h : Here D pre post i) : GotAt D pre i.get.1 i.get.2 := by
  cases post with
  | nil => rw [h.get_end.2]; exact .inr ⟨h.get_end.1, h⟩
  | cons c r => exact .inl ⟨c, r, h.get.1, h.get.2⟩

/-- The next character, if this one is not the end. -/
theorem GotAt.next {D pre : Bytes} {c : Byte} {s : StrIn} (h : GotAt D pre (sext c) s) (hc : c ≠ 0xFF) : GotAt D (pre ++ [c]) s.get.1 s.get.2 := by
  have inj : ∀ a b : Byte, sext a = sext b → a = b := fun a b e => by rw [← toChar_sext a, e, toChar_sext]
  rcases h with ⟨d, post, e, h⟩ | ⟨e, -⟩
  · rw [← inj _ _ e] at h
    exact h.got
  · exact absurd (inj c 0xFF (by rw [e]; rfl)) hc

theorem GotAt.char {D pre : Bytes} {n : Int} {s : StrIn} (h : GotAt D pre n s) : n = sext (toChar n) := by
  rcases h with ⟨d, post, e, -⟩ | ⟨e, -⟩
  · rw [e, toChar_sext]
  · rw [e]; rfl

theorem isDigitI_char {n : Int} (h : n = sext (toChar n)) (hd : Lexer.isDigitI n = true) : isDigit (toChar n) = true ∧ toChar n ≠ 0xFF := by
  have : ∀ c : Byte, Lexer.isDigitI (sext c) = true → isDigit c = true ∧ c ≠ 0xFF := by
    intro c
    refine forall_byte (P := fun c => Lexer.isDigitI (sext c) = true → isDigit c = true ∧ c ≠ 0xFF) ?_ c
    decide +kernel
  rw [h] at hd
  exact this _ hd

theorem digitLoop_lax {D : Bytes} : ∀ (f : Nat) (pre : Bytes) (s : StrIn) (next : Int) (buf : Bytes), GotAt D pre next s →
    Yields (fun x => ∃ ds, (∀ c ∈ ds, isDigit c = true) ∧ GotAt D (pre ++ ds) x.1 x.2.2 ∧ (Lexer.isDigitI next = true → ∃ r, ds = toChar next :: r))
      (Lexer.digitLoop f s next buf)
  | 0, _, _, _, _, _ => .ub
  | f + 1, pre, s, next, buf, h => by
    unfold Lexer.digitLoop
    split
    · next hd =>
      have hc := h.char
      obtain ⟨h1, h2⟩ := isDigitI_char hc hd
      have hn := GotAt.next (hc ▸ h) h2
      dsimp only
      refine (digitLoop_lax f (pre ++ [toChar next]) s.get.2 (sext (toChar s.get.1)) _ (hn.char ▸ hn)).mono ?_
      rintro ⟨n, b, s'⟩ ⟨ds, h3, h4, -⟩
      refine ⟨toChar next :: ds, ?_, ?_, fun _ => ⟨_, rfl⟩⟩
      · intro c hc
        rcases List.mem_cons.1 hc with rfl | hc
        · exact h1
        · exact h3 c hc
      · simpa using h4
    · next hd => exact .ok ⟨[], by simp, by simpa using h, fun h' => absurd h' hd⟩

theorem readDigits_lax {D pre : Bytes} {s : StrIn} {next : Int} (buf : Bytes) (h : GotAt D pre next s) :
    Yields (fun x => ∃ r, Digits (toChar next :: r) ∧ GotAt D (pre ++ toChar next :: r) x.1 x.2.2) (Lexer.readDigits s next buf) := by
  unfold Lexer.readDigits
  split
  · exact .throwStd
  · next hd =>
    refine (digitLoop_lax _ _ _ _ _ h).mono ?_
    rintro ⟨n, b, s'⟩ ⟨ds, h1, h2, h3⟩
    obtain ⟨r, rfl⟩ := h3 (by simpa using hd)
    exact ⟨r, digits_of (by simp) h1, h2⟩

theorem GotAt.sign {D pre : Bytes} {n : Int} {s : StrIn} {c : Byte} (h : GotAt D pre n s) (e : n = sext c) (hc : c ≠ 0xFF) : GotAt D (pre ++ [c]) s.get.1 s.get.2 :=
  GotAt.next (e ▸ h) hc

set_option maxHeartbeats 1000000 in
theorem readNumber_lax {D pre post : Bytes} {s : StrIn} (h : Here D pre post s) :
    Yields (fun x => ∃ tok post', SkipNumber tok ∧ Here D (pre ++ tok) post' x.2) (Lexer.readNumber s) := by
  unfold Lexer.readNumber
  have g0 := h.got
  generalize s.get = g at g0
  obtain ⟨n, s0⟩ := g
  dsimp only at g0 ⊢
  refine Yields.bind (P := fun (x : Int × Bytes × StrIn) => ∃ sg, (sg = [] ∨ sg = [0x2D] ∨ sg = [0x2B]) ∧ GotAt D (pre ++ sg) x.1 x.2.2) ?_ ?_
  · split
    · next hn =>
      split
      · exact .throwStd
      · rcases hn with hn | hn
        · exact .ok ⟨[0x2D], by simp, GotAt.sign g0 (c := 0x2D) (by rw [hn]; decide) (by decide)⟩
        · exact .ok ⟨[0x2B], by simp, GotAt.sign g0 (c := 0x2B) (by rw [hn]; decide) (by decide)⟩
    · exact .ok ⟨[], by simp, by simpa using g0⟩
  clear g0
  rintro ⟨n, b, s0⟩ ⟨sg, hsg, g0⟩
  dsimp only at g0 ⊢
  refine Yields.bind (P := fun (x : Int × Bytes × StrIn) => ∃ a, (Digits a ∧ (a.head? = some 0x30 → a = [0x30])) ∧ GotAt D (pre ++ sg ++ a) x.1 x.2.2) ?_ ?_
  · split
    · next hn =>
      exact .ok ⟨[0x30], ⟨digits_of (by simp) (by decide), fun _ => rfl⟩, GotAt.sign g0 (c := 0x30) (by rw [hn]; decide) (by decide)⟩
    · next hn =>
      refine (readDigits_lax _ g0).mono ?_
      rintro ⟨n', b', s'⟩ ⟨r, h1, h2⟩
      refine ⟨_, ⟨h1, fun e => ?_⟩, h2⟩
      exfalso
      simp at e
      exact hn (by rw [g0.char, e]; decide)
  clear g0
  rintro ⟨n, b, s0⟩ ⟨a, ha, g0⟩
  dsimp only at g0 ⊢
  refine Yields.bind (P := fun (x : Int × Bytes × StrIn) => ∃ f, Frac f ∧ GotAt D (pre ++ sg ++ a ++ f) x.1 x.2.2) ?_ ?_
  · split
    · next hn =>
      split
      · exact .throwStd
      · refine (readDigits_lax _ (GotAt.sign g0 (c := 0x2E) (by rw [hn]; decide) (by decide))).mono ?_
        rintro ⟨n', b', s'⟩ ⟨r, h1, h2⟩
        exact ⟨_, .inr ⟨_, h1, rfl⟩, by simpa using h2⟩
    · exact .ok ⟨[], .inl rfl, by simpa using g0⟩
  clear g0
  rintro ⟨n, b, s0⟩ ⟨f, hf, g0⟩
  dsimp only at g0 ⊢
  refine Yields.bind (P := fun (x : Int × Bytes × StrIn) => ∃ e, Expo e ∧ GotAt D (pre ++ sg ++ a ++ f ++ e) x.1 x.2.2) ?_ ?_
  · split
    · next hn =>
      split
      · exact .throwStd
      have ⟨c, hc, g1⟩ : ∃ c : Byte, (c = 0x65 ∨ c = 0x45) ∧ GotAt D (pre ++ sg ++ a ++ f ++ [c]) s0.get.1 s0.get.2 := by
        rcases hn with hn | hn
        · exact ⟨0x65, by simp, GotAt.sign g0 (by rw [hn]; decide) (by decide)⟩
        · exact ⟨0x45, by simp, GotAt.sign g0 (by rw [hn]; decide) (by decide)⟩
      split
      · next hm =>
        split
        · exact .throwStd
        have ⟨d, hd, g2⟩ : ∃ d : Byte, ([d] = [] ∨ [d] = [0x2B] ∨ [d] = [0x2D]) ∧ GotAt D (pre ++ sg ++ a ++ f ++ [c] ++ [d]) s0.get.2.get.1 s0.get.2.get.2 := by
          rcases hm with hm | hm
          · exact ⟨0x2D, by simp, GotAt.sign g1 (by rw [hm]; decide) (by decide)⟩
          · exact ⟨0x2B, by simp, GotAt.sign g1 (by rw [hm]; decide) (by decide)⟩
        refine (readDigits_lax _ g2).mono ?_
        rintro ⟨n', b', s'⟩ ⟨r, h1, h2⟩
        exact ⟨_, .inr ⟨c, [d], _, hc, hd, h1, rfl⟩, by simpa using h2⟩
      · refine (readDigits_lax _ g1).mono ?_
        rintro ⟨n', b', s'⟩ ⟨r, h1, h2⟩
        exact ⟨_, .inr ⟨c, [], _, hc, .inl rfl, h1, rfl⟩, by simpa using h2⟩
    · exact .ok ⟨[], .inl rfl, by simpa using g0⟩
  clear g0
  rintro ⟨n, b, s0⟩ ⟨e, he, g0⟩
  dsimp only at g0 ⊢
  split
  · next hn =>
    rcases g0 with ⟨c, post', -, g0⟩ | ⟨e1, -⟩
    · exact .ok ⟨sg ++ a ++ f ++ e, _, ⟨sg, a, f, e, [], hsg, ha.1, ha.2, hf, he, .inl rfl, by simp⟩, by simpa using g0.unget⟩
    · exact absurd e1 hn
  · next hn =>
    have hn : n = EOFv := by simpa using hn
    rcases g0 with ⟨c, post', e1, g0⟩ | ⟨e1, g0⟩
    · have : c = 0xFF := by rw [← toChar_sext c, ← e1, hn]; rfl
      subst this
      exact .ok ⟨sg ++ a ++ f ++ e ++ [0xFF], _, ⟨sg, a, f, e, [0xFF], hsg, ha.1, ha.2, hf, he, .inr rfl, by simp⟩, by simpa using g0⟩
    · exact .ok ⟨sg ++ a ++ f ++ e, _, ⟨sg, a, f, e, [], hsg, ha.1, ha.2, hf, he, .inl rfl, by simp⟩, by simpa using g0⟩

theorem scanQuote_lax {D : Bytes} : ∀ (f : Nat) (pre post : Bytes) (s : StrIn) (last : Byte) (acc : Bytes), Here D pre post s →
    Yields (fun x => ∃ body post', Here D (pre ++ (body ++ [0x22])) post' x.2 ∧ (last :: body).getLast? ≠ some 0x5C ∧
      ∀ a b, body = a ++ 0x22 :: b → (last :: a).getLast? = some 0x5C) (Lexer.scanQuote false f s last acc)
  | 0, _, _, _, _, _, _ => .ub
  | f + 1, pre, post, s, last, acc, h => by
    unfold Lexer.scanQuote
    have g0 := h.got
    generalize s.get = g at g0
    obtain ⟨n, s0⟩ := g
    dsimp only at g0 ⊢
    rcases g0 with ⟨c, post', e, g0⟩ | ⟨e, -⟩
    · have hq : (n = 0x22 ↔ c = 0x22) := by
        constructor
        · intro e'; rw [← toChar_sext c, ← e, e']; rfl
        · intro e'; rw [e, e']; rfl
      split
      · next hn =>
        rw [if_neg (by simp)]
        refine (scanQuote_lax f _ _ _ _ _ g0).mono ?_
        rintro ⟨b, s'⟩ ⟨body, post2, h1, h2, h3⟩
        have hc : toChar n = c := by rw [e, toChar_sext]
        rw [hc] at h2 h3
        refine ⟨c :: body, post2, by simpa using h1, ?_, ?_⟩
        · rw [List.getLast?_cons_cons]; exact h2
        · intro a b' hb
          cases a with
          | nil =>
            simp at hb
            by_cases hl : last = 0x5C
            · simp [hl]
            · exact absurd ⟨hq.2 hb.1, hl⟩ hn.2
          | cons d a' =>
            simp at hb
            rw [List.getLast?_cons_cons, ← hb.1]
            exact h3 a' b' hb.2
      · next hn =>
        split
        · exact .throwStd
        · next hE =>
          have hh : n = 0x22 ∧ last ≠ 0x5C := by
            by_cases h' : n = 0x22 ∧ last ≠ 0x5C
            · exact h'
            · exact absurd ⟨hE, h'⟩ hn
          have hc := hq.1 hh.1
          subst hc
          refine .ok ⟨[], post', by simpa using g0, by simpa using hh.2, ?_⟩
          intro a b hb
          simp at hb
    · rw [e]
      simp only [ne_eq, not_true_eq_false, false_and, if_false, if_true]
      exact .throwStd

/-- What is skipped, by the class of the lexeme. -/
theorem ignoreRaw_lax {D pre post : Bytes} {l : Lexer} {x : Lexeme} (top : Prop) (hx : l.lastToken = some x) (hs : punctOf x = []) (hp : startsAs x post)
    (h : Here D pre post l.inp) :
    Yields (fun l' => Took D pre top (fun t => SkipText t ∧ (x = .null_ → NullText t) ∧ (x = .string → SkipString t)) l'.inp) l.ignoreRawValue := by
  have lit : ∀ (c : Byte) (n : Nat), post.head? = some c → ∀ t, t = post.take (n + 1) ∧ n + 1 ≤ post.length → ∃ r, t = c :: r ∧ r.length = n := by
    intro c n hh t ht
    cases post with
    | nil => cases hh
    | cons d r =>
      simp at hh
      subst hh
      refine ⟨r.take n, ht.1, ?_⟩
      have := ht.2
      simp at this ⊢
      omega
  have head : x ≠ .number → ∃ c, post.head? = some c ∧ Lexer.classify c = x := by
    intro hn
    rcases hp with ⟨-, h1⟩ | ⟨c, r, e, h1⟩
    · exact absurd h1 hn
    · exact ⟨c, by rw [e]; rfl, h1⟩
  have cls : ∀ c : Byte, (Lexer.classify c = .true_ → c = 0x74) ∧ (Lexer.classify c = .false_ → c = 0x66) ∧ (Lexer.classify c = .null_ → c = 0x6E) ∧
      (Lexer.classify c = .string → c = 0x22) := by
    intro c
    refine forall_byte (P := fun c => (Lexer.classify c = .true_ → c = 0x74) ∧ (Lexer.classify c = .false_ → c = 0x66) ∧ (Lexer.classify c = .null_ → c = 0x6E) ∧
      (Lexer.classify c = .string → c = 0x22)) ?_ c
    decide +kernel
  unfold Lexer.ignoreRawValue
  rw [hx]
  cases x with
  | true_ =>
    refine .ok ((ignore_lax top 4 h).mono fun t ht => ⟨.inl ?_, by simp, by simp⟩)
    obtain ⟨c, h1, h2⟩ := head (by simp)
    obtain ⟨r, e, hr⟩ := lit c 3 h1 t ht
    obtain ⟨a, b, d, rfl⟩ : ∃ a b d, r = [a, b, d] := by
      match r, hr with
      | [a, b, d], _ => exact ⟨a, b, d, rfl⟩
    exact ⟨a, b, d, by rw [e, (cls c).1 h2]⟩
  | false_ =>
    refine .ok ((ignore_lax top 5 h).mono fun t ht => ⟨.inr (.inl ?_), by simp, by simp⟩)
    obtain ⟨c, h1, h2⟩ := head (by simp)
    obtain ⟨r, e, hr⟩ := lit c 4 h1 t ht
    obtain ⟨a, b, d, f, rfl⟩ : ∃ a b d f, r = [a, b, d, f] := by
      match r, hr with
      | [a, b, d, f], _ => exact ⟨a, b, d, f, rfl⟩
    exact ⟨a, b, d, f, by rw [e, (cls c).2.1 h2]⟩
  | null_ =>
    have key : ∀ t, t = post.take 4 ∧ 4 ≤ post.length → NullText t := by
      intro t ht
      obtain ⟨c, h1, h2⟩ := head (by simp)
      obtain ⟨r, e, hr⟩ := lit c 3 h1 t ht
      obtain ⟨a, b, d, rfl⟩ : ∃ a b d, r = [a, b, d] := by
        match r, hr with
        | [a, b, d], _ => exact ⟨a, b, d, rfl⟩
      exact ⟨a, b, d, by rw [e, (cls c).2.2.1 h2]⟩
    exact .ok ((ignore_lax top 4 h).mono fun t ht => ⟨.inr (.inr (.inl (key t ht))), fun _ => key t ht, by simp⟩)
  | number =>
    refine (readNumber_lax h).bind ?_
    rintro ⟨b, s⟩ ⟨tok, post', h1, h2⟩
    exact .ok (.inl ⟨tok, post', ⟨.inr (.inr (.inr (.inl h1))), by simp, by simp⟩, h2⟩)
  | string =>
    obtain ⟨c, h1, h2⟩ := head (by simp)
    have hc := (cls c).2.2.2 h2
    subst hc
    cases post with
    | nil => cases h1
    | cons d r =>
      simp at h1
      subst h1
      obtain ⟨h3, h4⟩ := h.get
      dsimp only
      refine (scanQuote_lax _ _ _ _ _ _ h4).bind ?_
      rintro ⟨b, s⟩ ⟨body, post', h5, h6, h7⟩
      rw [h3, toChar_sext] at h6 h7
      have hS : SkipString ([0x22] ++ body ++ [0x22]) := by
        refine ⟨body, rfl, ?_, ?_⟩
        · intro e
          cases body with
          | nil => cases e
          | cons d b' => rw [List.getLast?_cons_cons] at h6; exact h6 e
        · intro a b' e
          have := h7 a b' e
          cases a with
          | nil => simp at this
          | cons d a' => rw [List.getLast?_cons_cons] at this; exact this
      refine .ok (.inl ⟨[0x22] ++ body ++ [0x22], post', ⟨.inr (.inr (.inr (.inr hS))), by simp, fun _ => hS⟩, by simpa using h5⟩)
  | lbrace => cases hs
  | rbrace => cases hs
  | lbracket => cases hs
  | rbracket => cases hs
  | comma => cases hs
  | colon => cases hs

end Thors
