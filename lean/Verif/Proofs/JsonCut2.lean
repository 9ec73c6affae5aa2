import Verif.Proofs.JsonCut
/-
Cut texts: the invariant along an import, and how texts get cut.
-/
namespace Thors
open Spec StrIn

theorem yields_true {α : Type} {r : Res α} : Yields (fun _ => True) r := fun _ _ => trivial

/-- Reads do not touch the configuration of the lexer. -/
theorem reads_conv {l : Lexer} : (∀ k, Yields (fun x => x.2.convertBackSlash = l.convertBackSlash) (l.scanInt k)) ∧
    (∀ f, Yields (fun x => x.2.convertBackSlash = l.convertBackSlash) (l.scanFlt f)) ∧
    Yields (fun x => x.2.convertBackSlash = l.convertBackSlash) l.getLastBool ∧
    Yields (fun x => x.convertBackSlash = l.convertBackSlash) l.ignoreRawValue := by
  refine ⟨fun k => ?_, fun f => ?_, ?_, ?_⟩
  · unfold Lexer.scanInt
    refine yields_true.bind fun _ _ => ?_
    dsimp only
    split
    · exact .throwStd
    · split
      · exact .ok rfl
      · exact .ub
  · unfold Lexer.scanFlt
    refine yields_true.bind fun _ _ => ?_
    dsimp only
    split
    · exact .throwStd
    · split
      · exact .ok rfl
      · exact .ub
  · have hf : ∀ c, Yields (fun x => x.convertBackSlash = l.convertBackSlash) (l.checkFixed c) := by
      intro c
      unfold Lexer.checkFixed
      refine yields_true.bind fun _ _ => ?_
      dsimp only
      split
      · exact .ok rfl
      · exact .throwStd
    unfold Lexer.getLastBool
    split
    · exact .ub
    · exact (hf _).bind fun x hx => .ok hx
    · exact (hf _).bind fun x hx => .ok hx
    · exact .throwStd
  · unfold Lexer.ignoreRawValue
    split
    · exact .ub
    · exact .ok rfl
    · exact .ok rfl
    · exact .ok rfl
    · exact yields_true.bind fun _ _ => .ok rfl
    · exact yields_true.bind fun _ _ => .ok rfl
    · exact .ok rfl

theorem Reads.yields {σ α : Type} {Q : σ → Prop} {r : Res (α × σ)} {e : Res α} (h : Reads Q r e) : Yields (fun x => Q x.2) r := by
  cases e with
  | ok a => obtain ⟨s, rfl, h⟩ := h; exact .ok h
  | throw e => rw [show r = _ from h]; exact .throw
  | ub => rw [show r = _ from h]; exact .ub

theorem Skips.yields {σ : Type} {Q : σ → Prop} {r : Res σ} (h : Skips Q r) : Yields Q r := by
  obtain ⟨s, rfl, h⟩ := h; exact .ok h

section
variable {w : Prop} {conv : Bool}

theorem Live.read {s s' : JsonP} (h : Live w conv s) (h0 : s'.ctl = s.ctl) (h1 : AtCut w s.ctl.parrentState.length s'.lex.inp)
    (h2 : s'.lex.convertBackSlash = s.lex.convertBackSlash) : Live w conv s' :=
  ⟨by rw [h0]; exact h.started, h2.trans h.conv, by rw [h0]; exact h.ctl, by rw [h0]; exact h1⟩

theorem Live.at {s s' : JsonP} {post : Bytes} (h : Live w conv s) (hc : Cut w s.ctl.parrentState.length post) (h1 : At conv s.ctl post s') : Live w conv s' :=
  h.read h1.ctl (.inl ⟨_, h1.inp, hc⟩) (by rw [h1.conv, h.conv])

/-- Everything the client can do with a value or key that was just given. -/
theorem fresh_reads {s : JsonP} (h : Live w conv s) (hf : Fresh w conv s.ctl.parrentState.length s.lex) :
    (∀ k, Yields (fun x => Live w conv x.2) (s.getInt k)) ∧ (∀ f, Yields (fun x => Live w conv x.2) (s.getFlt f)) ∧
    Yields (fun x => Live w conv x.2) s.getBool ∧ (w → Yields (Live w conv) s.ignoreDataValue) ∧
    (s.isValueNull = true → Yields (Live w conv) s.ignoreDataValue) := by
  cases hf with
  | junk hj =>
    have hi : Yields (Live w conv) s.ignoreDataValue := by
      refine Yields.bind (P := fun x => AtCut w s.ctl.parrentState.length x.inp ∧ x.convertBackSlash = s.lex.convertBackSlash) (fun x e =>
        ⟨(later_ignoreRaw hj.sane x e).cut hj, reads_conv.2.2.2 x e⟩) (fun x hx => .ok (h.read rfl hx.1 hx.2))
    refine ⟨fun k => ?_, fun f => ?_, ?_, fun _ => hi, fun _ => hi⟩
    · exact Yields.bind (P := fun x => AtCut w s.ctl.parrentState.length x.2.inp ∧ x.2.convertBackSlash = s.lex.convertBackSlash) (fun x e =>
        ⟨(later_scanInt k hj.sane x e).cut hj, reads_conv.1 k x e⟩) (fun x hx => .ok (h.read rfl hx.1 hx.2))
    · exact Yields.bind (P := fun x => AtCut w s.ctl.parrentState.length x.2.inp ∧ x.2.convertBackSlash = s.lex.convertBackSlash) (fun x e =>
        ⟨(later_scanFlt f hj.sane x e).cut hj, reads_conv.2.1 f x e⟩) (fun x hx => .ok (h.read rfl hx.1 hx.2))
    · exact Yields.bind (P := fun x => AtCut w s.ctl.parrentState.length x.2.inp ∧ x.2.convertBackSlash = s.lex.convertBackSlash) (fun x e =>
        ⟨(later_getLastBool x e).cut hj, reads_conv.2.2.1 x e⟩) (fun x hx => .ok (h.read rfl hx.1 hx.2))
  | scalar hx he hl hk hc =>
    obtain ⟨h1, h2, h3, h4, h5, h6, h7⟩ := (jsonSource conv).scalar (c := s.ctl) (s := s) hx he ⟨rfl, hl⟩
    refine ⟨fun k => (h2 k).yields.mono fun x hx => h.at hc hx, fun f => (h7 f).yields.mono fun x hx => h.at hc hx, h3.yields.mono fun x hx => h.at hc hx,
      fun hw => (h5 (.inr (hk hw))).yields.mono fun x hx => h.at hc hx, fun hn => (h5 (.inl ?_)).yields.mono fun x hx => h.at hc hx⟩
    rw [← h1]; exact hn
  | str hl hs =>
    have hin := hl.inp
    rw [if_neg (by decide)] at hin
    refine ⟨fun k => ?_, fun f => ?_, ?_, fun _ => ?_, fun hn => ?_⟩
    · unfold JsonP.getInt
      rw [scanInt_bad k (by decide) (fun h => absurd h (by decide)) hin.2.1 hin.1]
      exact .throwStd
    · unfold JsonP.getFlt
      rw [scanFlt_bad f (by decide) (by decide) (by decide) (scanSpecial_head (by decide) (by decide)) hin.2.1 hin.1]
      exact .throwStd
    · unfold JsonP.getBool Lexer.getLastBool
      rw [hl.tok]
      exact .throwStd
    · unfold JsonP.ignoreDataValue Lexer.ignoreRawValue
      obtain ⟨i1, e1, h2, -, -⟩ := at_get hin
      simp only [hl.tok, show Lexer.classify 0x22 = .string by decide, e1]
      refine Yields.bind (P := fun _ => False) ?_ fun _ h => h.elim
      exact (scanQuote_none _ _ _ false _ _ h2 hs (by simp)).bind fun _ h => h.elim
    · exfalso
      unfold JsonP.isValueNull at hn
      rw [hl.null] at hn
      exact absurd hn (by decide)

theorem live_not_failed {s : JsonP} (h : Live w conv s) : ¬ Failed s := by
  intro hf
  have := h.ctl.state
  rw [hf.2] at this
  simp at this

/-- The invariant along an import of a cut text. -/
theorem cut_watch : WatchF JsonP.ops w (CutInv w conv) (CutF w conv) (CutV w conv) CutA CutB (fun t => t ≠ .DocEnd) where
  error := by decide
  mapStart := by decide
  next := by
    rintro s (h | h | h)
    · show Yields _ s.getNextToken
      rw [next_cut_failed h]
      exact .ok ⟨.inl h, .inl h, by simp, by simp, by simp⟩
    · exact (next_cut_live h).mono fun x hx => ⟨hx.inv.elim .inl fun h => .inr (.inl h), hx.fresh, hx.tok, hx.val, hx.key⟩
    · refine (next_cut_start h).mono ?_
      rintro ⟨t, s'⟩ ⟨h1, h2, h3⟩
      exact ⟨.inr (.inl h1), h2, by rcases h3 with h | h <;> (dsimp only at h; subst h; simp)⟩
  nextA := by
    rintro s (h | h | h) ha
    · show Yields _ s.getNextToken
      rw [next_cut_failed h]
      exact .ok (by simp)
    · refine (next_cut_live h).mono fun x hx e => hx.mem ?_ e
      exact ha.resolve_left fun e => live_not_failed h ⟨h.started, e⟩
    · unfold CutA at ha
      rw [h.ctl] at ha
      simp at ha
  nextB := by
    rintro s (h | h | h) ha
    · show Yields _ s.getNextToken
      rw [next_cut_failed h]
      exact .ok (by simp)
    · refine (next_cut_live h).mono fun x hx => hx.coma ?_
      exact ha.resolve_left fun e => live_not_failed h ⟨h.started, e⟩
    · unfold CutB at ha
      rw [h.ctl] at ha
      simp at ha
  getKey := by
    intro s h hf
    have hctl := (reads_ctl (s := s)).2.2.2.2.1
    show Yields _ s.getKey
    rcases h with h | h | h
    · exact fun x e => ⟨.inl (failed_of_ctl h (hctl x e)), fun ha => by unfold CutA at ha ⊢; rw [hctl x e]; exact ha⟩
    · suffices hs : Yields (fun x => Live w conv x.2) s.getKey from
        fun x e => ⟨.inr (.inl (hs x e)), fun ha => by unfold CutA at ha ⊢; rw [hctl x e]; exact ha⟩
      unfold JsonP.getKey Lexer.getString
      refine Yields.bind (P := fun x => AtCut w s.ctl.parrentState.length x.2.inp ∧ x.2.convertBackSlash = s.lex.convertBackSlash) ?_ fun x hx => .ok (h.read rfl hx.1 hx.2)
      exact (getString_cut h.text).bind fun x hx => .ok hx
    · exact (cutF_not_start hf h).elim
  getInt := by
    intro k s h hf hv
    have hctl := (reads_ctl (s := s)).1 k
    rcases h with h | h | h
    · exact fun x e => .inl (failed_of_ctl h (hctl x e))
    · exact ((fresh_reads h (hv.resolve_left (live_not_failed h))).1 k).mono fun x hx => .inr (.inl hx)
    · exact (cutF_not_start hf h).elim
  getFlt := by
    intro f s h hf hv
    have hctl := (reads_ctl (s := s)).2.1 f
    rcases h with h | h | h
    · exact fun x e => .inl (failed_of_ctl h (hctl x e))
    · exact ((fresh_reads h (hv.resolve_left (live_not_failed h))).2.1 f).mono fun x hx => .inr (.inl hx)
    · exact (cutF_not_start hf h).elim
  getBool := by
    intro s h hf hv
    have hctl := (reads_ctl (s := s)).2.2.1
    rcases h with h | h | h
    · exact fun x e => .inl (failed_of_ctl h (hctl x e))
    · exact ((fresh_reads h (hv.resolve_left (live_not_failed h))).2.2.1).mono fun x hx => .inr (.inl hx)
    · exact (cutF_not_start hf h).elim
  getStr := by
    intro s h hf hv
    have hctl := (reads_ctl (s := s)).2.2.2.1
    show Yields _ s.getStr
    rcases h with h | h | h
    · exact fun x e => ⟨.inl (failed_of_ctl h (hctl x e)), fun ha => by unfold CutB at ha ⊢; rw [hctl x e]; exact ha⟩
    · suffices hs : Yields (fun x => Live w conv x.2) s.getStr from
        fun x e => ⟨.inr (.inl (hs x e)), fun ha => by unfold CutB at ha ⊢; rw [hctl x e]; exact ha⟩
      unfold JsonP.getStr
      exact (getString_cut h.text).bind fun x hx => .ok (h.read rfl hx.1 hx.2)
    · exact (cutF_not_start hf h).elim
  skip := by
    intro hw s h hf
    have hctl := (reads_ctl (s := s)).2.2.2.2.2
    show Yields _ s.ignoreDataValue
    rcases h with h | h | h
    · exact fun x e => .inl (failed_of_ctl h (hctl x e))
    · rcases hf with hf | ⟨x, h1, -, h2⟩ | ⟨hf, -⟩
      · exact absurd hf (live_not_failed h)
      · unfold JsonP.ignoreDataValue Lexer.ignoreRawValue
        rw [h1]
        rcases h2 with rfl | rfl | rfl | rfl <;> exact .ok (.inr (.inl h))
      · exact ((fresh_reads h hf).2.2.2.1 hw).mono fun x hx => .inr (.inl hx)
    · exact (cutF_not_start hf h).elim
  null := by
    intro s h hf hn
    have hctl := (reads_ctl (s := s)).2.2.2.2.2
    show Yields _ s.ignoreDataValue
    rcases h with h | h | h
    · exact fun x e => .inl (failed_of_ctl h (hctl x e))
    · rcases hf with hf | ⟨x, h1, h3, h2⟩ | ⟨hf, -⟩
      · exact absurd hf (live_not_failed h)
      · unfold JsonP.ignoreDataValue Lexer.ignoreRawValue
        rw [h1]
        rcases h2 with rfl | rfl | rfl | rfl <;> exact .ok (.inr (.inl h))
      · exact ((fresh_reads h hf).2.2.2.2 hn).mono fun x hx => .inr (.inl hx)
    · exact (cutF_not_start hf h).elim

end

/-! ### Cutting a text -/

/-- Every text that starts like `t` is cut. -/
def Her (w : Prop) (d : Nat) (t : Bytes) : Prop := ∀ n, Cut w d (t.take n)

theorem noClose_nil : NoClose [] := by intro c hc; cases hc

theorem noClose_ws {t : Bytes} (h : Ws t) : NoClose t := by
  intro c hc
  rcases h c hc with rfl | rfl | rfl | rfl <;> decide

theorem ws_take {t : Bytes} (h : Ws t) (n : Nat) : Ws (t.take n) := fun c hc => h c (List.mem_of_mem_take hc)

theorem her_nil {w : Prop} {d : Nat} : Her w d [] := fun n => by rw [List.take_nil]; exact .junk noClose_nil

/-- A cut in the white space, or behind it. -/
theorem her_ws {w : Prop} {d : Nat} {ws t : Bytes} (hw : Ws ws) (h : ∀ n, Cut w d (ws ++ t.take n)) : Her w d (ws ++ t) := by
  intro n
  rw [List.take_append]
  by_cases hn : n ≤ ws.length
  · have : n - ws.length = 0 := by omega
    rw [this, List.take_zero, List.append_nil]
    exact .junk (noClose_ws (ws_take hw n))
  · rw [List.take_of_length_le (by omega)]
    exact h _

theorem ws_nil : Ws [] := by intro c hc; cases hc

theorem her_punct {w : Prop} {d : Nat} {ws : Bytes} {c : Byte} {t : Bytes} (hw : Ws ws) (h : ∀ n, Cut w d (ws ++ c :: t.take n)) : Her w d (ws ++ c :: t) := by
  refine her_ws hw fun n => ?_
  cases n with
  | zero => rw [List.take_zero, List.append_nil]; exact .junk (noClose_ws hw)
  | succ n => rw [List.take_succ_cons]; exact h n

theorem her_opens {w : Prop} {d : Nat} {ws : Bytes} {c : Byte} {t : Bytes} (hw : Ws ws) (hc : c = 0x7B ∨ c = 0x5B) (h : Her w (d + 1) t) : Her w d (ws ++ c :: t) :=
  her_punct hw fun n => .opens hw hc (h n)

theorem her_closes {w : Prop} {d : Nat} {ws : Bytes} {c : Byte} {t : Bytes} (hw : Ws ws) (hc : c = 0x7D ∨ c = 0x5D) (h : Her w (d + 1) t) : Her w (d + 2) (ws ++ c :: t) :=
  her_punct hw fun n => .closes hw hc (h n)

theorem her_sep {w : Prop} {d : Nat} {ws : Bytes} {c : Byte} {t : Bytes} (hw : Ws ws) (hc : c = 0x2C ∨ c = 0x3A) (h : Her w d t) : Her w d (ws ++ c :: t) :=
  her_punct hw fun n => .sep hw hc (h n)

theorem ends_take {v : JTree} {post : Bytes} (h : Ends v post) (n : Nat) : Ends v (post.take n) := by
  have hv : valueEnds post → valueEnds (post.take n) := by
    intro h
    cases post with
    | nil => rw [List.take_nil]; exact h
    | cons c t =>
      cases n with
      | zero => exact True.intro
      | succ n =>
        rw [List.take_succ_cons]
        refine ⟨?_, h.2⟩
        exact h.1
  unfold Ends at h ⊢
  split
  · exact hv h
  · exact hv h
  · trivial

/-- A part of a body of a string has no closing quote. -/
theorem splitQuote_prefix : ∀ (t : Bytes) (e : Bool) (u : Bytes) (b p : Bytes), splitQuote e (t ++ u) = some (b, p) → t.length ≤ b.length → splitQuote e t = none
  | [], _, _, _, _, _, _ => by simp [splitQuote]
  | c :: t, true, u, b, p, h, hl => by
    simp only [List.cons_append, splitQuote, Option.map_eq_some_iff, Prod.exists, Prod.mk.injEq] at h ⊢
    obtain ⟨b', p', h1, rfl, rfl⟩ := h
    rw [splitQuote_prefix t false u b' p' h1 (by simpa using hl)]
    rfl
  | c :: t, false, u, b, p, h, hl => by
    simp only [List.cons_append, splitQuote] at h ⊢
    split at h
    · simp only [Option.some.injEq, Prod.mk.injEq] at h
      rw [← h.1] at hl
      simp at hl
    · rename_i hc
      rw [if_neg hc]
      simp only [Option.map_eq_some_iff, Prod.exists, Prod.mk.injEq] at h
      obtain ⟨b', p', h1, rfl, rfl⟩ := h
      rw [splitQuote_prefix t _ u b' p' h1 (by simpa using hl)]
      rfl

theorem digit_noClose {c : Byte} (h : isDigit c = true) : c ≠ 0x5D ∧ c ≠ 0x7D := by
  constructor <;> (rintro rfl; exact absurd h (by decide))

theorem digits_noClose {t : Bytes} (h : Digits t) : NoClose t := by
  obtain ⟨n, h⟩ := h
  intro c hc
  exact digit_noClose ((dec_iff.1 h).2.1 c hc)

theorem lit_noClose {t : Bytes} {i : Int} (h : IntLit t i) : NoClose t := by
  cases h with
  | pos h => exact digits_noClose ⟨_, h⟩
  | neg h =>
    intro c hc
    rcases List.mem_cons.1 hc with rfl | hc
    · decide
    · exact digits_noClose ⟨_, h⟩ c hc

theorem noClose_append {a b : Bytes} (ha : NoClose a) (hb : NoClose b) : NoClose (a ++ b) := by
  intro c hc
  rcases List.mem_append.1 hc with h | h
  · exact ha c h
  · exact hb c h

theorem noClose_take {a : Bytes} (ha : NoClose a) (n : Nat) : NoClose (a.take n) := fun c hc => ha c (List.mem_of_mem_take hc)

theorem frac_noClose {t : Bytes} (h : Frac t) : NoClose t := by
  rcases h with rfl | ⟨ds, h, rfl⟩
  · exact noClose_nil
  · intro c hc
    rcases List.mem_cons.1 hc with rfl | hc
    · decide
    · exact digits_noClose h c hc

theorem expo_noClose {t : Bytes} (h : Expo t) : NoClose t := by
  rcases h with rfl | ⟨e, sg, ds, he, hs, h, rfl⟩
  · exact noClose_nil
  · intro c hc
    rcases List.mem_cons.1 hc with rfl | hc
    · rcases he with rfl | rfl <;> decide
    · rcases List.mem_append.1 hc with h' | h'
      · rcases hs with rfl | rfl | rfl
        · cases h'
        · rw [List.mem_singleton.1 h']; decide
        · rw [List.mem_singleton.1 h']; decide
      · exact digits_noClose h c h'

/-- A scalar, cut or not. -/
theorem her_scalar {w : Prop} {d : Nat} {ws : Bytes} {x : JScalar} {t post : Bytes} (hw : Ws ws) (hx : ScalarText codePair x t) (he : Ends (.scalar x) post)
    (hk : w → (jsem true).skips x = true) (h : Her w d post) : Her w d (ws ++ (t ++ post)) := by
  refine her_ws hw fun n => ?_
  rw [List.take_append]
  by_cases hn : t.length ≤ n
  · rw [List.take_of_length_le hn]
    exact .scalar hw hx (ends_take he _) hk (h _)
  have hz : n - t.length = 0 := by omega
  rw [hz, List.take_zero, List.append_nil]
  have hjunk : NoClose t → Cut w d (ws ++ t.take n) := fun hj => .junk (noClose_append (noClose_ws hw) (noClose_take hj n))
  cases x with
  | null => exact hjunk (by rw [show t = _ from hx]; intro c hc; simp at hc; rcases hc with rfl | rfl | rfl <;> decide)
  | bool b => exact hjunk (by rw [show t = _ from hx]; cases b <;> (intro c hc; simp at hc; rcases hc with rfl | rfl | rfl | rfl | rfl <;> decide))
  | int tx i => exact hjunk (by obtain ⟨rfl, h1, -⟩ := hx; exact lit_noClose h1)
  | frac tx dx =>
    obtain ⟨rfl, ⟨a, i, f, e, h1, -, h3, h4, -, rfl⟩, -⟩ := hx
    exact hjunk (noClose_append (lit_noClose h1) (noClose_append (frac_noClose h3) (expo_noClose h4)))
  | str s =>
    obtain ⟨hb, rfl⟩ := hx
    cases n with
    | zero => rw [List.take_zero, List.append_nil]; exact .junk (noClose_ws hw)
    | succ n =>
      have e : ([0x22] ++ s.raw ++ [0x22] : Bytes).take (n + 1) = 0x22 :: s.raw.take n := by
        simp only [List.cons_append, List.take_succ_cons, List.nil_append]
        rw [List.take_append]
        simp only [List.length_append, List.length_cons, List.length_nil] at hn
        rw [show n - s.raw.length = 0 by omega]
        simp
      rw [e]
      refine .str hw ?_
      have := splitQuote_body hb []
      refine splitQuote_prefix (s.raw.take n) false (s.raw.drop n ++ [0x22]) s.raw [] ?_ (by simp; omega)
      rw [← List.append_assoc, List.take_append_drop]
      exact this

theorem cut_ws {w : Prop} {d : Nat} {ws t : Bytes} (hw : Ws ws) (h : Cut w d t) : Cut w d (ws ++ t) := by
  have ha : ∀ {a : Bytes}, Ws a → Ws (ws ++ a) := by
    intro a ha c hc
    rcases List.mem_append.1 hc with h | h
    · exact hw c h
    · exact ha c h
  cases h with
  | junk h => exact .junk (noClose_append (noClose_ws hw) h)
  | opens h1 h2 h3 => rw [← List.append_assoc]; exact .opens (ha h1) h2 h3
  | closes h1 h2 h3 => rw [← List.append_assoc]; exact .closes (ha h1) h2 h3
  | sep h1 h2 h3 => rw [← List.append_assoc]; exact .sep (ha h1) h2 h3
  | scalar h1 h2 h3 h4 h5 => rw [← List.append_assoc]; exact .scalar (ha h1) h2 h3 h4 h5
  | str h1 h2 => rw [← List.append_assoc]; exact .str (ha h1) h2

theorem her_ws_then {w : Prop} {d : Nat} {ws t : Bytes} (hw : Ws ws) (h : Her w d t) : Her w d (ws ++ t) := her_ws hw fun n => cut_ws hw (h n)

theorem valueEnds_ws_then {ws t : Bytes} (hw : Ws ws) (h : valueEnds t) : valueEnds (ws ++ t) := by
  cases ws with
  | nil => exact h
  | cons c ws =>
    refine valueEnds_sep ?_
    rcases hw c (by simp) with h | h | h | h <;> simp [h]

/-- What follows a value may be cut too. -/
def HerValue (w : Prop) (v : JTree) : Prop :=
  ∀ t, JText codePair v t → (w → v.skippable (jsem true) = true) → ∀ d ws post, Ws ws → Ends v post → Her w (d + 1) post → Her w (d + 1) (ws ++ (t ++ post))

theorem her_elems {w : Prop} : ∀ (vs : List JTree) (ps : List Bytes), (∀ v ∈ vs, HerValue w v) → JText.elems codePair vs ps →
    (w → Tr.skippable.all (jsem true) vs = true) → ∀ d post, valueEnds post → Her w (d + 1) post → Her w (d + 1) (commas ps ++ post)
  | [], ps, _, he, _, d, post, _, h => by
    rw [show ps = [] from he]
    exact h
  | [v], ps, ih, he, hk, d, post, hp, h => by
    obtain ⟨w1, tv, w2, ps', h1, h2, h3, h4, rfl⟩ := he
    rw [show ps' = [] from h4]
    have := ih v (by simp) tv h3 (fun hw => by have := hk hw; simp only [Tr.skippable.all, Bool.and_true] at this; exact this) d w1 (w2 ++ post) h1
      (.of (valueEnds_ws_then h2 hp)) (her_ws_then h2 h)
    simpa [commas] using this
  | v :: v' :: vs, ps, ih, he, hk, d, post, hp, h => by
    obtain ⟨w1, tv, w2, ps', h1, h2, h3, h4, rfl⟩ := he
    have hne : ∃ q qs, ps' = q :: qs := by
      obtain ⟨_, _, _, _, _, _, _, _, rfl⟩ := h4
      exact ⟨_, _, rfl⟩
    have hk' := fun hw => by have := hk hw; simp only [Tr.skippable.all, Bool.and_eq_true] at this; exact this
    have hrest := her_elems (v' :: vs) ps' (fun u hu => ih u (by simp [hu])) h4 (fun hw => by simp only [Tr.skippable.all, Bool.and_eq_true]; exact (hk' hw).2) d post hp h
    have := ih v (by simp) tv h3 (fun hw => (hk' hw).1) d w1 (w2 ++ 0x2C :: (commas ps' ++ post)) h1
      (.of (valueEnds_ws_then h2 (valueEnds_sep (by simp)))) (her_sep h2 (by simp) hrest)
    obtain ⟨q, qs, rfl⟩ := hne
    simpa [commas] using this

theorem her_member {w : Prop} {k : JStr} {v : JTree} (ih : HerValue w v) {w1 w2 w3 tv : Bytes} (h1 : Ws w1) (h2 : Ws w2) (h3 : Ws w3)
    (hb : Body codePair k.raw k.dec) (ht : JText codePair v tv) (hk : w → k.skips = true) (hv : w → v.skippable (jsem true) = true) {d : Nat} {post : Bytes}
    (he : Ends v post) (h : Her w (d + 1) post) :
    Her w (d + 1) (w1 ++ [0x22] ++ k.raw ++ [0x22] ++ w2 ++ [0x3A] ++ w3 ++ tv ++ post) := by
  have hval := ih tv ht hv d w3 post h3 he h
  have hsep := her_sep (c := 0x3A) h2 (by simp) hval
  have := her_scalar (x := .str k) (t := [0x22] ++ k.raw ++ [0x22]) (post := w2 ++ 0x3A :: (w3 ++ (tv ++ post))) h1 ⟨hb, rfl⟩ trivial hk hsep
  simpa using this

theorem her_members {w : Prop} : ∀ (ms : List (JStr × JTree)) (ps : List Bytes), (∀ m ∈ ms, HerValue w m.2) → JText.members codePair ms ps →
    (w → Tr.skippable.allM (jsem true) ms = true) → ∀ d post, valueEnds post → Her w (d + 1) post → Her w (d + 1) (commas ps ++ post)
  | [], ps, _, he, _, d, post, _, h => by
    rw [show ps = [] from he]
    exact h
  | [(k, v)], ps, ih, he, hk, d, post, hp, h => by
    obtain ⟨w1, w2, w3, tv, w4, ps', h1, h2, h3, h4, hb, ht, h5, rfl⟩ := he
    rw [show ps' = [] from h5]
    have hk' := fun hw => by have := hk hw; simp only [Tr.skippable.allM, Bool.and_true, Bool.and_eq_true] at this; exact this
    have := her_member (ih (k, v) (by simp)) h1 h2 h3 hb ht (fun hw => (hk' hw).1) (fun hw => (hk' hw).2) (d := d) (post := w4 ++ post)
      (.of (valueEnds_ws_then h4 hp)) (her_ws_then h4 h)
    simpa [commas] using this
  | (k, v) :: m' :: ms, ps, ih, he, hk, d, post, hp, h => by
    obtain ⟨w1, w2, w3, tv, w4, ps', h1, h2, h3, h4, hb, ht, h5, rfl⟩ := he
    have hne : ∃ q qs, ps' = q :: qs := by
      obtain ⟨_, _⟩ := m'
      obtain ⟨_, _, _, _, _, _, _, _, _, _, _, _, _, rfl⟩ := h5
      exact ⟨_, _, rfl⟩
    have hk' : w → (k.skips = true ∧ v.skippable (jsem true) = true) ∧ Tr.skippable.allM (jsem true) (m' :: ms) = true := fun hw => by
      have := hk hw
      rw [Tr.skippable.allM, Bool.and_eq_true, Bool.and_eq_true] at this
      exact this
    have hrest := her_members (m' :: ms) ps' (fun u hu => ih u (by simp [hu])) h5 (fun hw => (hk' hw).2) d post hp h
    have := her_member (ih (k, v) (by simp)) h1 h2 h3 hb ht (fun hw => (hk' hw).1.1) (fun hw => (hk' hw).1.2) (d := d) (post := w4 ++ 0x2C :: (commas ps' ++ post))
      (.of (valueEnds_ws_then h4 (valueEnds_sep (by simp)))) (her_sep h4 (by simp) hrest)
    obtain ⟨q, qs, rfl⟩ := hne
    simpa [commas] using this

/-- The parts of a tree. -/
def PartsHer (w : Prop) : JTree → Prop
  | .scalar _ => True
  | .arr vs => ∀ u ∈ vs, HerValue w u
  | .obj ms => ∀ m ∈ ms, HerValue w m.2

/-- The inside of a container, with what may follow. -/
theorem her_inside {w : Prop} {v : JTree} {t : Bytes} (ih : PartsHer w v)
    (hv : ∀ x, v ≠ .scalar x) (ht : JText codePair v t) (hk : w → v.skippable (jsem true) = true) :
    ∃ o c body, t = o :: (body ++ [c]) ∧ (o = 0x7B ∨ o = 0x5B) ∧ (c = 0x7D ∨ c = 0x5D) ∧
      ∀ d post, valueEnds post → Her w (d + 1) post → Her w (d + 1) (body ++ post) := by
  cases v with
  | scalar x => exact absurd rfl (hv x)
  | arr vs =>
    cases vs with
    | nil =>
      obtain ⟨w0, h0, rfl⟩ := ht
      exact ⟨0x5B, 0x5D, w0, by simp, by simp, by simp, fun d post _ h => her_ws_then h0 h⟩
    | cons u us =>
      obtain ⟨ps, hps, rfl⟩ := ht
      exact ⟨0x5B, 0x5D, commas ps, by simp, by simp, by simp, her_elems (u :: us) ps ih hps hk⟩
  | obj ms =>
    cases ms with
    | nil =>
      obtain ⟨w0, h0, rfl⟩ := ht
      exact ⟨0x7B, 0x7D, w0, by simp, by simp, by simp, fun d post _ h => her_ws_then h0 h⟩
    | cons u us =>
      obtain ⟨ps, hps, rfl⟩ := ht
      exact ⟨0x7B, 0x7D, commas ps, by simp, by simp, by simp, her_members (u :: us) ps ih hps hk⟩

theorem her_value {w : Prop} : ∀ v : JTree, HerValue w v := by
  have hcont : ∀ v : JTree, (∀ x, v ≠ .scalar x) →
      PartsHer w v → HerValue w v := by
    intro v hv ih t ht hk d ws post hw he h
    obtain ⟨o, c, body, rfl, ho, hc, hb⟩ := her_inside ih hv ht hk
    have := hb (d + 1) (c :: post) (valueEnds_sep (by rcases hc with rfl | rfl <;> simp)) (her_closes (ws := []) ws_nil hc h)
    have := her_opens hw ho this
    simpa using this
  refine Spec.Tr.induct ?_ ?_ ?_
  · intro x t ht hk d ws post hw he h
    exact her_scalar hw ht he hk h
  · intro ts ih
    exact hcont _ (by simp) ih
  · intro ms ih
    exact hcont _ (by simp) ih

/-- A container that is cut: its opening bracket is followed by a text that never closes it. -/
theorem cut_container {w : Prop} {v : JTree} {t t' rest : Bytes} (hv : ∀ x, v ≠ .scalar x) (ht : JText codePair v t) (hk : w → v.skippable (jsem true) = true)
    (hr : rest ≠ []) (e : t' ++ rest = t) : t' = [] ∨ ∃ o u, t' = o :: u ∧ (o = 0x7B ∨ o = 0x5B) ∧ Cut w 1 u := by
  have ih : PartsHer w v := by
    cases v with
    | scalar x => trivial
    | arr vs => exact fun u _ => her_value u
    | obj ms => exact fun m _ => her_value m.2
  obtain ⟨o, c, body, rfl, ho, hc, hb⟩ := her_inside ih hv ht hk
  cases t' with
  | nil => exact .inl rfl
  | cons o' u =>
    right
    simp only [List.cons_append, List.cons.injEq] at e
    obtain ⟨rfl, e⟩ := e
    refine ⟨o', u, rfl, ho, ?_⟩
    have h := hb 0 [] trivial her_nil u.length
    rw [List.append_nil] at h
    have : body.take u.length = u := by
      have hl := congrArg List.length e
      simp only [List.length_append, List.length_cons, List.length_nil] at hl
      have : rest.length ≠ 0 := by simpa using hr
      have e2 := congrArg (List.take u.length) e
      rw [List.take_left', List.take_append_of_le_length (by omega)] at e2
      · exact e2.symm
      · rfl
    rw [this] at h
    exact h

end Thors
