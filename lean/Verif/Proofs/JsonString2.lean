import Verif.Proofs.JsonString
/-
Lemmas: what the decoder accepts, the unterminated case, no undefined behaviour, the second decoder.
-/
namespace Thors
open Spec

/-- Items accepted by the decoder: as in the specification, but a raw quote is let through (the lexer
never hands it one). -/
inductive Item : Bytes → Bytes → Prop
  | raw (c : Byte) (h1 : 0x20 ≤ c.toNat) (h3 : c ≠ 0x5C) : Item [c] [c]
  | short {c d : Byte} (h : ShortEsc c d) : Item [0x5C, c] [d]
  | uni {h : Bytes} {v : Nat} (hv : Hex4 h v) (hs : ¬ highSurrogate v) : Item (0x5C :: 0x75 :: h) (utf8 v)
  | pair {t : Bytes} {hi lo : Nat} (h : PairItem t hi lo) : Item t (codePair hi lo)

theorem uniL_inv {t o : Bytes} {k : Nat} (h : uniL t = .ok (o, k)) :
    ∃ it rest, t = it ++ rest ∧ it.length = k ∧ Item (0x5C :: 0x75 :: it) o := by
  have h0 := h
  simp only [uniL, Res.bind_eq_ok] at h
  obtain ⟨u, hu, _⟩ := h
  obtain ⟨a, t', rfl, hal, hx⟩ := hexL_hex4 hu
  by_cases hs : highSurrogate u
  · rw [uniL_high hx hs] at h0
    simp only [Res.bind_eq_ok] at h0
    obtain ⟨⟨o', k'⟩, hsur, h0⟩ := h0
    simp at h0
    obtain ⟨rfl, rfl⟩ := h0
    match t', hsur with
    | [], hsur => simp [surL] at hsur
    | [_], hsur => simp [surL] at hsur
    | c1 :: c2 :: t2, hsur =>
      have h1 : c1 = 0x5C := by
        apply Classical.byContradiction; intro hn; simp [surL, hn] at hsur
      have h2 : c2 = 0x75 := by
        apply Classical.byContradiction; intro hn; simp [surL, h1, hn] at hsur
      subst h1; subst h2
      have hsur0 := hsur
      simp only [surL, ne_eq, not_true_eq_false, if_false, Res.bind_eq_ok] at hsur
      obtain ⟨lo, hlo, _⟩ := hsur
      obtain ⟨b, t3, rfl, hbl, hy⟩ := hexL_hex4 hlo
      have := surL_pair hx hy t3
      simp only [List.cons_append] at this
      rw [this] at hsur0
      split at hsur0
      · rename_i hp
        simp at hsur0
        obtain ⟨rfl, rfl⟩ := hsur0
        refine ⟨a ++ 0x5C :: 0x75 :: b, t3, by simp, by simp [hal, hbl], ?_⟩
        have := Item.pair (PairItem.mk hx hy hp.1 hp.2)
        simpa using this
      · simp at hsur0
  · rw [uniL_basic hx hs] at h0
    simp at h0
    obtain ⟨rfl, rfl⟩ := h0
    exact ⟨a, t', rfl, hal, .uni hx hs⟩

theorem stepL_inv {c : Byte} {cs o : Bytes} {k : Nat} (h : stepL c cs = .ok (o, k)) :
    ∃ it, c :: cs = (c :: it) ++ cs.drop k ∧ it.length = k ∧ Item (c :: it) o := by
  unfold stepL at h
  split at h
  · simp at h
  rename_i h1
  rw [UInt8.lt_iff_toNat_lt] at h1
  split at h
  · rename_i h2
    simp at h
    obtain ⟨rfl, rfl⟩ := h
    exact ⟨[], by simp, rfl, .raw c (by simpa using h1) h2⟩
  rename_i h2
  have h2 : c = 0x5C := by simpa using h2
  subst h2
  split at h
  · simp at h
  rename_i r t
  split at h
  · rename_i b hb
    simp at h
    obtain ⟨rfl, rfl⟩ := h
    exact ⟨[r], by simp, rfl, .short (shortEsc_iff.mpr hb)⟩
  · split at h
    · rename_i hr
      subst hr
      simp only [Res.bind_eq_ok] at h
      obtain ⟨⟨o', k'⟩, hu, h⟩ := h
      simp at h
      obtain ⟨rfl, rfl⟩ := h
      obtain ⟨it, rest, rfl, rfl, hit⟩ := uniL_inv hu
      exact ⟨0x75 :: it, by simp [Nat.add_comm 1], by simp [Nat.add_comm 1], hit⟩
    · simp at h

/-- What the decoder accepts between quotes is a well-formed body, and what it returns is its meaning
(with the code's reading of surrogate pairs). -/
theorem unesc_ok_body (n : Nat) : ∀ (t o post : Bytes), t.length ≤ n →
    splitQuote false (t ++ 0x22 :: post) = some (t, post) → unesc t = .ok o → Body codePair t o := by
  induction n with
  | zero =>
    intro t o post hn _ hu
    have : t = [] := by simpa using hn
    subst this
    simp [unesc] at hu; subst hu
    exact .nil
  | succ n ih =>
    intro t o post hn hsp hu
    cases t with
    | nil => simp [unesc] at hu; subst hu; exact .nil
    | cons c cs =>
      rw [unesc_cons] at hu
      simp only [Res.bind_eq_ok] at hu
      obtain ⟨⟨o1, k⟩, hst, r, hr, hu⟩ := hu
      simp at hu
      subst hu
      have hc : c ≠ 0x22 := by
        rintro rfl
        simp [splitQuote] at hsp
      obtain ⟨it, heq, hlen, hitem⟩ := stepL_inv hst
      have hk : cs = it ++ cs.drop k := by simpa using heq
      have hlen2 : (cs.drop k).length ≤ n := by simp at hn ⊢; omega
      rw [heq] at hsp ⊢
      cases hitem with
      | raw _ h1 h3 =>
        have hb := BasicItem.raw c h1 hc h3
        rw [List.append_assoc, splitQuote_basic hb] at hsp
        simp only [Option.map_eq_some_iff] at hsp
        obtain ⟨⟨b, p⟩, hs1, hs2⟩ := hsp
        simp at hs2
        obtain ⟨rfl, rfl⟩ := hs2
        exact Body.basic hb (ih _ _ _ hlen2 hs1 hr)
      | short h =>
        have hb := BasicItem.short h
        rw [List.append_assoc, splitQuote_basic hb] at hsp
        simp only [Option.map_eq_some_iff] at hsp
        obtain ⟨⟨b, p⟩, hs1, hs2⟩ := hsp
        simp at hs2
        obtain ⟨rfl, rfl⟩ := hs2
        exact Body.basic hb (ih _ _ _ hlen2 hs1 hr)
      | uni hv hs =>
        have hb := BasicItem.uni hv hs
        rw [List.append_assoc, splitQuote_basic hb] at hsp
        simp only [Option.map_eq_some_iff] at hsp
        obtain ⟨⟨b, p⟩, hs1, hs2⟩ := hsp
        simp at hs2
        obtain ⟨rfl, rfl⟩ := hs2
        exact Body.basic hb (ih _ _ _ hlen2 hs1 hr)
      | pair h =>
        rw [List.append_assoc, splitQuote_pair h] at hsp
        simp only [Option.map_eq_some_iff] at hsp
        obtain ⟨⟨b, p⟩, hs1, hs2⟩ := hsp
        simp at hs2
        obtain ⟨rfl, rfl⟩ := hs2
        exact Body.pair h (ih _ _ _ hlen2 hs1 hr)

theorem unesc_std (n : Nat) : ∀ t : Bytes, t.length ≤ n → unesc t = throwStd ∨ ∃ o, unesc t = .ok o := by
  induction n with
  | zero =>
    intro t h
    have : t = [] := by simpa using h
    subst this; right; simp [unesc]
  | succ n ih =>
    intro t h
    cases t with
    | nil => right; simp [unesc]
    | cons c cs =>
      rw [unesc_cons]
      refine bind_std (stepL_std _ _) ?_
      rintro ⟨o, k⟩ _
      refine bind_std (ih _ (by simp at h ⊢; omega)) ?_
      simp

theorem splitQuote_suffix {e t b p} (h : splitQuote e t = some (b, p)) (post : Bytes) :
    splitQuote e (b ++ 0x22 :: post) = some (b, post) := by
  induction t generalizing e b with
  | nil => simp [splitQuote] at h
  | cons c cs ih =>
    cases e with
    | true =>
      simp only [splitQuote, Option.map_eq_some_iff] at h
      obtain ⟨⟨b', p'⟩, h1, h2⟩ := h
      simp at h2; obtain ⟨rfl, rfl⟩ := h2
      simp [splitQuote, ih h1]
    | false =>
      simp only [splitQuote] at h
      split at h
      · rename_i hc; simp at h; obtain ⟨rfl, rfl⟩ := h; simp [splitQuote]
      · rename_i hc
        simp only [Option.map_eq_some_iff] at h
        obtain ⟨⟨b', p'⟩, h1, h2⟩ := h
        simp at h2; obtain ⟨rfl, rfl⟩ := h2
        simp [splitQuote, ih h1, hc]

/-! ### no closing quote -/

theorem readTo_none {s : StrIn} {t : Bytes} (hp : s.pos ≤ s.data.length) (hr : s.rest = t)
    (hq : ∀ c ∈ t, c ≠ 0x22) :
    s.readTo 0x22 = .ok (t, false, { s with pos := s.data.length + 1, good := false }) := by
  have hlen := congrArg List.length hr
  simp [StrIn.rest] at hlen
  have hu : StrIn.upTo 0x22 t = t.length := by
    clear hr hlen
    induction t with
    | nil => rfl
    | cons c cs ih =>
      simp only [StrIn.upTo, if_neg (hq c (by simp)), List.length_cons]
      rw [ih (fun x hx => hq x (by simp [hx]))]
  unfold StrIn.rest at hr
  unfold StrIn.readTo
  rw [if_neg (by omega), hr, hu]
  have : ¬ s.pos + (t.length + 1) ≤ s.data.length := by omega
  have h2 : s.pos + (t.length + 1) = s.data.length + 1 := by omega
  simp [h2]

theorem readMore_none (f : Nat) : ∀ (t : Bytes) (s : StrIn) (value : Bytes),
    t.length + 1 < f → s.pos ≤ s.data.length → s.rest = t → splitQuote false t = none →
    Lexer.readMore f s value = throwStd ∨
    ∃ v, Lexer.readMore f s value = .ok (v, { s with pos := s.data.length + 1, good := false }) := by
  induction f with
  | zero => intro t s value h; omega
  | succ f ih =>
    intro t s value hf hp hr hsp
    by_cases hu : StrIn.upTo 0x22 t < t.length
    · have hsplit := upTo_split 0x22 t hu
      have hseg := upTo_seg 0x22 t
      generalize t.take (StrIn.upTo 0x22 t) = seg at hsplit hseg
      generalize t.drop (StrIn.upTo 0x22 t + 1) = t' at hsplit
      subst hsplit
      rw [splitQuote_seg hseg] at hsp
      obtain ⟨hrd, hl⟩ := readTo_found hr hseg
      simp only [Lexer.readMore, hrd, Res.ok_bind]
      have hce := checkEscape_eq seg
      by_cases he : escState false seg = true
      · rw [if_pos he] at hsp
        simp only [Option.map_eq_none_iff] at hsp
        have hne : seg ≠ [] := by
          intro h; subst h; simp [escState] at he
        rw [if_pos ⟨List.length_pos_iff.mpr hne, by rw [hce, he]⟩]
        have hr' : ({ s with pos := s.pos + (seg.length + 1), good := true } : StrIn).rest = t' := by
          unfold StrIn.rest at hr ⊢
          simp only
          rw [← List.drop_drop, hr]
          simp
        exact ih t' _ _ (by simp at hf; omega) (by simp only; omega) hr' hsp
      · rw [if_neg he] at hsp; simp at hsp
    · have hu' : StrIn.upTo 0x22 t = t.length := by have := upTo_le 0x22 t; omega
      have hseg := upTo_seg 0x22 t
      rw [hu', List.take_length] at hseg
      simp only [Lexer.readMore, readTo_none hp hr hseg, Res.ok_bind]
      split
      · left
        obtain ⟨f', rfl⟩ : ∃ f', f = f' + 1 := ⟨f - 1, by omega⟩
        simp [Lexer.readMore, StrIn.readTo]
      · right; exact ⟨_, rfl⟩

/-- A string without a closing quote never leaves the input in a good state. -/
theorem getStringInto_none (l : Lexer) (t : Bytes) (hg : l.inp.good = true)
    (hr : l.inp.rest = 0x22 :: t) (hsp : splitQuote false t = none) :
    l.getStringInto = throwStd ∨
    ∃ v, l.getStringInto = .ok (v, { l with inp := { l.inp with pos := l.inp.data.length + 1, good := false } }) := by
  obtain ⟨hget, hr1⟩ := get_cons hg hr
  have hlen := congrArg List.length hr
  simp [StrIn.rest] at hlen
  have tail : ∀ value : Bytes, (do
      let v ← (if l.convertBackSlash then unescapeInPlace value else .ok value : Res Bytes)
      return (v, { l with inp := { l.inp with pos := l.inp.data.length + 1, good := false } }) : Res (Bytes × Lexer)) = throwStd ∨
      ∃ v, (do
      let v ← (if l.convertBackSlash then unescapeInPlace value else .ok value : Res Bytes)
      return (v, { l with inp := { l.inp with pos := l.inp.data.length + 1, good := false } }) : Res (Bytes × Lexer)) =
        .ok (v, { l with inp := { l.inp with pos := l.inp.data.length + 1, good := false } }) := by
    intro value
    split
    · rw [unescapeInPlace_eq]
      rcases unesc_std _ value (Nat.le_refl _) with h | ⟨o, h⟩
      · left; rw [h]; rfl
      · right; exact ⟨o, by rw [h]; rfl⟩
    · right; exact ⟨value, rfl⟩
  unfold Lexer.getStringInto
  rw [hget]
  simp only [toChar_sext, ne_eq, not_true_eq_false, if_false]
  by_cases hu : StrIn.upTo 0x22 t < t.length
  · have hsplit := upTo_split 0x22 t hu
    have hseg := upTo_seg 0x22 t
    generalize t.take (StrIn.upTo 0x22 t) = seg at hsplit hseg
    generalize t.drop (StrIn.upTo 0x22 t + 1) = t' at hsplit
    subst hsplit
    rw [splitQuote_seg hseg] at hsp
    obtain ⟨hrd, hl⟩ := readTo_found hr1 hseg
    simp only [hrd, Res.ok_bind]
    have hce := checkEscape_eq seg
    by_cases he : escState false seg = true
    · rw [if_pos he] at hsp
      simp only [Option.map_eq_none_iff] at hsp
      have hne : seg ≠ [] := by
        intro h; subst h; simp [escState] at he
      rw [if_pos ⟨List.length_pos_iff.mpr hne, by rw [hce, he]⟩]
      have hr' : ({ l.inp with pos := l.inp.pos + 1 + (seg.length + 1), good := true } : StrIn).rest = t' := by
        unfold StrIn.rest at hr1 ⊢
        simp only at hr1 ⊢
        rw [← List.drop_drop, hr1]
        simp
      have hdl : t'.length + 1 < l.inp.data.length + 1 := by
        have := congrArg List.length hr'; simp [StrIn.rest] at this; simp at hl; omega
      have hpos : l.inp.pos + 1 + (seg.length + 1) ≤ l.inp.data.length := by simp at hl; omega
      rcases readMore_none _ t' _ seg hdl hpos hr' hsp with h | ⟨v, h⟩
      · left; rw [h]; rfl
      · rw [h]
        simp only [Res.ok_bind]
        exact tail v
    · rw [if_neg he] at hsp; simp at hsp
  · have hu' : StrIn.upTo 0x22 t = t.length := by have := upTo_le 0x22 t; omega
    have hseg := upTo_seg 0x22 t
    rw [hu', List.take_length] at hseg
    have hpos : l.inp.pos + 1 ≤ l.inp.data.length := by omega
    rw [readTo_none (s := { l.inp with pos := l.inp.pos + 1 }) hpos hr1 hseg]
    simp only [Res.ok_bind]
    split
    · left
      obtain ⟨f', hf⟩ : ∃ f', l.inp.data.length + 1 = f' + 1 := ⟨_, rfl⟩
      simp [Lexer.readMore, StrIn.readTo]
    · simp only [Res.ok_bind]; exact tail t

theorem readTo_cases (s : StrIn) (d : Byte) :
    s.readTo d = throwStd ∨ ∃ v g s', s.readTo d = .ok (v, g, s') ∧ s.pos < s'.pos ∧ s.pos ≤ s.data.length ∧
      s'.data = s.data := by
  unfold StrIn.readTo
  split
  · left; rfl
  · right; exact ⟨_, _, _, rfl, by simp only; omega, by omega, rfl⟩

theorem readMore_ne_ub (f : Nat) : ∀ (s : StrIn) (value : Bytes), s.data.length + 1 < f + s.pos → 0 < f →
    Lexer.readMore f s value ≠ .ub := by
  induction f with
  | zero => intro s value h h0; omega
  | succ f ih =>
    intro s value h _
    simp only [Lexer.readMore]
    rcases readTo_cases s 0x22 with h1 | ⟨v, g, s', h1, h2, h3, h4⟩
    · rw [h1]; simp
    · rw [h1]
      simp only [Res.ok_bind]
      split
      · exact ih _ _ (by rw [h4]; omega) (by omega)
      · simp

theorem unescapeInPlace_ne_ub (t : Bytes) : unescapeInPlace t ≠ .ub := by
  rw [unescapeInPlace_eq]
  rcases unesc_std _ t (Nat.le_refl _) with h | ⟨o, h⟩ <;> rw [h] <;> simp

/-- `getStringInto` never has undefined behaviour, whatever the input and position. -/
theorem getStringInto_ne_ub (l : Lexer) : l.getStringInto ≠ .ub := by
  have tail : ∀ (value : Bytes) (s : StrIn), (do
      let v ← (if l.convertBackSlash then unescapeInPlace value else .ok value : Res Bytes)
      return (v, { l with inp := s }) : Res (Bytes × Lexer)) ≠ .ub := by
    intro value s
    split
    · have := unescapeInPlace_ne_ub value
      cases h : unescapeInPlace value <;> simp_all
    · simp
  unfold Lexer.getStringInto
  generalize l.inp.get = g
  obtain ⟨next, s⟩ := g
  simp only
  split
  · simp
  rcases readTo_cases s 0x22 with h1 | ⟨v, g, s', h1, h2, h3, h4⟩
  · rw [h1]; simp
  · rw [h1]
    simp only [Res.ok_bind]
    split
    · have := readMore_ne_ub (s'.data.length + 1) s' v (by omega) (by omega)
      cases h : Lexer.readMore (s'.data.length + 1) s' v with
      | ub => exact absurd h this
      | throw e => simp
      | ok p => simp only [Res.ok_bind]; exact tail _ _
    · simp only [Res.ok_bind]; exact tail _ _

/-! ### the push back iterator -/

theorem run_append (s : UPB) (a b : Bytes) : s.run (a ++ b) = (do let s ← s.run a; s.run b) := by
  induction a generalizing s with
  | nil => rfl
  | cons c cs ih =>
    simp only [List.cons_append, UPB.run]
    cases s.assign c with
    | ok s1 => simp [ih]
    | throw e => rfl
    | ub => rfl

theorem assign_hex {cont : Bytes} {ls : Bool} {n v d : Nat} {x : Byte} (hd : convertHexToDec x = .ok d)
    (hn : 1 ≤ n) (hn2 : n ≤ 4) (hv : v * 16 + d < 2 ^ 32) :
    UPB.assign ⟨cont, ls, n, v⟩ x =
      if n = 1 then UPB.finish ⟨cont, ls, 0, v * 16 + d⟩ else .ok ⟨cont, ls, n - 1, v * 16 + d⟩ := by
  unfold UPB.assign
  rw [if_pos (by simp; omega), if_neg (by simp; omega), if_neg (by simp; omega), hd]
  simp only [Res.ok_bind, Nat.shiftLeft_eq]
  have : (v * 2 ^ 4 % 2 ^ 32 + d) % 2 ^ 32 = v * 16 + d := by omega
  rw [this]
  by_cases h1 : n = 1
  · subst h1; simp
  · rw [if_neg h1, if_neg (by omega)]

theorem run_hex4 {h : Bytes} {v : Nat} (hx : Hex4 h v) (cont : Bytes) (ls : Bool) (u : Nat) (hu : u < 2 ^ 16) :
    UPB.run ⟨cont, ls, 4, u⟩ h = UPB.finish ⟨cont, ls, 0, u * 65536 + v⟩ := by
  cases hx with
  | mk ha hb hc hd =>
    have h1 := hex_lt ha
    have h2 := hex_lt hb
    have h3 := hex_lt hc
    have h4 := hex_lt hd
    simp only [UPB.run]
    rw [assign_hex (hex_convert.mp ha) (by omega) (by omega) (by omega), if_neg (by omega)]
    simp only [Res.ok_bind]
    rw [assign_hex (hex_convert.mp hb) (by omega) (by omega) (by omega), if_neg (by omega)]
    simp only [Res.ok_bind]
    rw [assign_hex (hex_convert.mp hc) (by omega) (by omega) (by omega), if_neg (by omega)]
    simp only [Res.ok_bind]
    rw [assign_hex (hex_convert.mp hd) (by omega) (by omega) (by omega), if_pos (by omega)]
    rename_i w x y z
    have : (((u * 16 + w) * 16 + x) * 16 + y) * 16 + z = u * 65536 + (w * 4096 + x * 256 + y * 16 + z) := by omega
    rw [this]
    cases UPB.finish ⟨cont, ls, 0, u * 65536 + (w * 4096 + x * 256 + y * 16 + z)⟩ <;> rfl

theorem finish_basic {v : Nat} (hlt : v < 0x10000) (hs : ¬ highSurrogate v) (cont : Bytes) :
    UPB.finish ⟨cont, false, 0, v⟩ = .ok ⟨cont ++ utf8 v, false, 0, v⟩ := by
  simp only [UPB.finish, UPB.push, utf8]
  by_cases c1 : v ≤ 0x7F
  · rw [if_pos c1, if_pos (show v < 0x80 by omega), nb_eq]
  rw [if_neg c1, if_neg (show ¬ v < 0x80 by omega)]
  by_cases c2 : v ≤ 0x7FF
  · rw [if_pos c2, if_pos (show v < 0x800 by omega), or80]
    have := orC0 (x := v) (by omega)
    have h2 : (v >>> 6) &&& 0x1F = v >>> 6 := by
      rw [show (0x1F : Nat) = 2 ^ 5 - 1 by decide, and_mask, Nat.shiftRight_eq_div_pow]; omega
    rw [h2] at this
    rw [this]; simp only [nb_eq]
  rw [if_neg c2, if_neg (show ¬ v < 0x800 by omega), if_pos (show v ≤ 0xFFFF by omega), if_pos (show v < 0x10000 by omega)]
  rw [if_pos (show v &&& 0xFC00 ≠ 0xD800 by rw [ne_eq, and_FC00_iff hlt]; exact hs), or80, or80]
  have := orE0 (x := v) (by omega)
  have h2 : (v >>> 12) &&& 0x0F = v >>> 12 := by
    rw [show (0x0F : Nat) = 2 ^ 4 - 1 by decide, and_mask, Nat.shiftRight_eq_div_pow]; omega
  rw [h2] at this
  rw [this]
  simp only [nb_eq, Nat.shiftRight_eq_div_pow]

theorem finish_high {v : Nat} (hlt : v < 0x10000) (hs : highSurrogate v) (cont : Bytes) :
    UPB.finish ⟨cont, false, 0, v⟩ = .ok ⟨cont, false, 6, v⟩ := by
  have hs' := hs
  unfold highSurrogate at hs'
  simp only [UPB.finish]
  rw [if_neg (show ¬ v ≤ 0x7F by omega), if_neg (show ¬ v ≤ 0x7FF by omega), if_pos (show v ≤ 0xFFFF by omega)]
  rw [if_neg (show ¬ (v &&& 0xFC00 ≠ 0xD800) by rw [ne_eq, and_FC00_iff hlt, Classical.not_not]; exact hs)]

theorem finish_pair {hi lo : Nat} (h1 : hi < 0x10000) (h2 : lo < 0x10000) (hh : highSurrogate hi)
    (hl : lowSurrogate lo) (cont : Bytes) :
    UPB.finish ⟨cont, false, 0, hi * 65536 + lo⟩ =
      .ok ⟨cont ++ codePair hi lo, false, 0, codePairValue hi lo⟩ := by
  have hh' := hh
  unfold highSurrogate at hh'
  have e : hi * 65536 + lo = (hi <<< 16) + lo := by rw [Nat.shiftLeft_eq]
  have hge : ¬ hi * 65536 + lo ≤ 0xFFFF := by omega
  simp only [UPB.finish]
  rw [if_neg (show ¬ hi * 65536 + lo ≤ 0x7F by omega), if_neg (show ¬ hi * 65536 + lo ≤ 0x7FF by omega), if_neg hge]
  rw [if_neg (by rw [e]; exact fun hn => hn ((pair_mask h1 h2).mpr ⟨hh, hl⟩)), e, pair_value h1 h2]
  have hv1 := codePairValue_ge hi lo
  have hv2 := codePairValue_lt hi lo
  simp only [UPB.push, codePair, utf8]
  rw [if_neg (show ¬ codePairValue hi lo < 0x80 by omega), if_neg (show ¬ codePairValue hi lo < 0x800 by omega),
      if_neg (show ¬ codePairValue hi lo < 0x10000 by omega), or80, or80, or80]
  have := orF0 (x := codePairValue hi lo) hv2
  have h2 : (codePairValue hi lo >>> 18) &&& 0x0F = codePairValue hi lo >>> 18 := by
    rw [show (0x0F : Nat) = 2 ^ 4 - 1 by decide, and_mask, Nat.shiftRight_eq_div_pow]; omega
  rw [h2] at this
  rw [this]
  simp only [Nat.shiftRight_eq_div_pow, nb_eq]

theorem run_item {t o : Bytes} (h : Item t o) (cont : Bytes) (u : Nat) :
    ∃ u', UPB.run ⟨cont, false, 0, u⟩ t = .ok ⟨cont ++ o, false, 0, u'⟩ := by
  cases h with
  | raw c h1 h3 => exact ⟨u, by simp [UPB.run, UPB.assign, h3, UPB.push]⟩
  | short h => cases h <;> exact ⟨u, rfl⟩
  | uni hv hs =>
    rename_i h v
    refine ⟨v, ?_⟩
    have := run_hex4 hv cont false 0 (by decide)
    rw [Nat.zero_mul, Nat.zero_add, finish_basic (hex4_lt hv) hs] at this
    exact this
  | pair h =>
    cases h with
    | mk ha hb h3 h4 =>
      rename_i hi lo a b
      refine ⟨codePairValue hi lo, ?_⟩
      have e1 := run_hex4 ha cont false 0 (by decide)
      rw [Nat.zero_mul, Nat.zero_add, finish_high (hex4_lt ha) h3] at e1
      have e2 := run_hex4 hb cont false hi (hex4_lt ha)
      rw [finish_pair (hex4_lt ha) (hex4_lt hb) h3 h4] at e2
      have e3 : UPB.run ⟨cont, false, 0, u⟩ (0x5C :: 0x75 :: a ++ 0x5C :: 0x75 :: b) =
          UPB.run ⟨cont, false, 4, 0⟩ (a ++ 0x5C :: 0x75 :: b) := rfl
      rw [e3, run_append, e1]
      exact e2

theorem run_unesc (n : Nat) : ∀ (t o : Bytes), t.length ≤ n → unesc t = .ok o → ∀ (cont : Bytes) (u : Nat),
    ∃ u', UPB.run ⟨cont, false, 0, u⟩ t = .ok ⟨cont ++ o, false, 0, u'⟩ := by
  induction n with
  | zero =>
    intro t o hn hu cont u
    have : t = [] := by simpa using hn
    subst this
    simp [unesc] at hu; subst hu
    exact ⟨u, by simp [UPB.run]⟩
  | succ n ih =>
    intro t o hn hu cont u
    cases t with
    | nil => simp [unesc] at hu; subst hu; exact ⟨u, by simp [UPB.run]⟩
    | cons c cs =>
      rw [unesc_cons] at hu
      simp only [Res.bind_eq_ok] at hu
      obtain ⟨⟨o1, k⟩, hst, r, hr, hu⟩ := hu
      simp at hu
      subst hu
      obtain ⟨it, heq, hlen, hitem⟩ := stepL_inv hst
      have hlen2 : (cs.drop k).length ≤ n := by simp at hn ⊢; omega
      obtain ⟨u1, h1⟩ := run_item hitem cont u
      obtain ⟨u2, h2⟩ := ih _ _ hlen2 hr (cont ++ o1) u1
      refine ⟨u2, ?_⟩
      rw [heq, run_append, h1]
      simpa using h2

/-! ### which code point the code reads from a surrogate pair -/

theorem or_low (a b : Nat) (hb : b < 1024) : a * 1024 ||| b = a * 1024 + b := by
  have := Nat.two_pow_add_eq_or_of_lt (i := 10) hb a
  have e : a * 1024 = 2 ^ 10 * a := by omega
  rw [e, this]

theorem or_bit16 (x : Nat) (hx2 : x < 1048576) :
    65536 ||| x = if (65536 + x) / 65536 % 2 = 1 then 65536 + x else x := by
  have e8 : (65536 ||| x) = 2 ^ 16 * (1 ||| x / 2 ^ 16) + x % 2 ^ 16 := by
    have h := Nat.two_pow_add_eq_or_of_lt (i := 16) (b := x % 2 ^ 16) (by omega) (x / 2 ^ 16)
    have h' := Nat.two_pow_add_eq_or_of_lt (i := 16) (b := x % 2 ^ 16) (by omega) (1 ||| x / 2 ^ 16)
    have e7 : x = 2 ^ 16 * (x / 2 ^ 16) + x % 2 ^ 16 := by omega
    rw [h']
    conv => lhs; rw [e7, h]
    rw [← Nat.or_assoc]
    congr 1
    have := Nat.shiftLeft_or_distrib (a := 1) (b := x / 2 ^ 16) (i := 16)
    simp only [Nat.shiftLeft_eq] at this
    rw [Nat.mul_comm (2 ^ 16) (1 ||| x / 2 ^ 16), this, Nat.mul_comm (2 ^ 16) (x / 2 ^ 16)]
  rw [e8]
  have h16 : x / 2 ^ 16 < 16 := by omega
  generalize hy : x / 2 ^ 16 = y at *
  have e9 : (65536 + x) / 65536 = 1 + y := by omega
  rw [e9]
  have key : ∀ y, y < 16 → (1 ||| y) = if (1 + y) % 2 = 1 then 1 + y else y := by decide
  rw [key y h16]
  split <;> omega

theorem codePairValue_char {hi lo : Nat} (h1 : highSurrogate hi) (h2 : lowSurrogate lo) :
    codePairValue hi lo = if pairCodePoint hi lo / 0x10000 % 2 = 1 then pairCodePoint hi lo
      else pairCodePoint hi lo - 0x10000 := by
  unfold highSurrogate at h1
  unfold lowSurrogate at h2
  have e : codePairValue hi lo = 65536 ||| (hi % 1024 * 1024 + lo % 1024) := by
    unfold codePairValue
    rw [Nat.or_assoc, or_low _ _ (by omega)]
  have e2 : pairCodePoint hi lo = 65536 + (hi % 1024 * 1024 + lo % 1024) := by
    unfold pairCodePoint; omega
  rw [e, e2, or_bit16 _ (by omega)]
  split
  · rfl
  · omega

end Thors
