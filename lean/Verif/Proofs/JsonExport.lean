import Verif.Proofs.JsonPrint
import Verif.Proofs.FloatScalar
import Verif.Spec.Layout
/-
Exported JSON texts: well formed, laid out, and the two pass output to a string.
-/
namespace Thors
open Spec StrIn JPrint

/-- The JSON tree of a document as the printer spells it, floating point values with the texts `ft`. -/
def jscalar (ft : FKind → Flt → Bytes) : Atom → JScalar
  | .null => .null
  | .bool b => .bool b
  | .int _ i => .int (intText i) i
  | .flt f x => fltScalar (ft f x)
  | .str s => .str ⟨escapeString s, s⟩

def jtree (ft : FKind → Flt → Bytes) : Doc → JTree
  | .scalar a => .scalar (jscalar ft a)
  | .arr ts => .arr (elems ts)
  | .obj ms => .obj (members ms)
where
  elems : List Doc → List JTree
  | [] => []
  | t :: ts => jtree ft t :: elems ts
  members : List (Bytes × Doc) → List (JStr × JTree)
  | [] => []
  | (k, t) :: ms => (⟨k, k⟩, jtree ft t) :: members ms

variable {ft : FKind → Flt → Bytes}

/-- The text of a floating point value is a number close to it. -/
def AtomOk (ft : FKind → Flt → Bytes) : Atom → Prop
  | .flt f x => FltText ft f x
  | _ => True

theorem jscalar_denotes (a : Atom) (h : AtomOk ft a) : ScalarDenotes (jscalar ft a) a := by
  cases a with
  | flt f x =>
    obtain ⟨y, h1, h2⟩ := h
    obtain ⟨-, h3, -⟩ := fltScalar_spec rfcPair h1
    show ScalarDenotes (fltScalar (ft f x)) _
    revert h3
    unfold fltScalar
    split
    · intro h3
      simp only [JScalar.number, Option.some.injEq] at h3
      rw [h3]; exact h2
    · intro h3; exact ⟨y, h3, h2⟩
  | _ => simp [jscalar, ScalarDenotes]

mutual
theorem jtree_denotes : ∀ d : Doc, AllScalars (AtomOk ft) d → Denotes (jtree ft d) d
  | .scalar a, h => jscalar_denotes a h
  | .arr ts, h => jtree_elems ts h
  | .obj ms, h => jtree_members ms h
theorem jtree_elems : ∀ ts : List Doc, AllScalars.elems (AtomOk ft) ts → Denotes.elems (jtree.elems ft ts) ts
  | [], _ => trivial
  | t :: ts, h => ⟨jtree_denotes t h.1, jtree_elems ts h.2⟩
theorem jtree_members : ∀ ms : List (Bytes × Doc), AllScalars.members (AtomOk ft) ms → Denotes.members (jtree.members ft ms) ms
  | [], _ => trivial
  | (_, t) :: ms, h => ⟨rfl, jtree_denotes t h.1, jtree_members ms h.2⟩
end

theorem cleanKey_body (pr : Nat → Nat → Bytes) : ∀ k : Bytes, cleanKey k → Body pr k k
  | [], _ => .nil
  | c :: k, h => by
    have := h c (by simp)
    exact .basic (.raw c this.1 this.2.1 this.2.2) (cleanKey_body pr k (fun x hx => h x (by simp [hx])))

theorem atom_text (pr : Nat → Nat → Bytes) (a : Atom) (h : AtomOk ft a) : ScalarText pr (jscalar ft a) (atomText ft a) := by
  cases a with
  | null => rfl
  | bool b => rfl
  | int k i => exact ⟨rfl, intText_lit i, intText_noLeadingZero i⟩
  | flt f x => obtain ⟨y, h1, -⟩ := h; exact (fltScalar_spec pr h1).1
  | str s => exact ⟨escape_body pr s, rfl⟩

mutual
theorem ptext_jtext (pr : Nat → Nat → Bytes) : ∀ (d : Doc) (t : Bytes), AllKeys cleanKey d → AllScalars (AtomOk ft) d → PText ft d t →
    JText pr (jtree ft d) t
  | .scalar a, t, _, hs, h => by rw [PText] at h; subst h; exact atom_text pr a hs
  | .arr [], t, _, _, h => h
  | .arr (v :: vs), t, hk, hs, ⟨ps, h, e⟩ => ⟨ps, ptext_elems pr (v :: vs) ps hk hs h, e⟩
  | .obj [], t, _, _, h => h
  | .obj ((k, v) :: ms), t, hk, hs, ⟨ps, h, e⟩ => ⟨ps, ptext_members pr ((k, v) :: ms) ps hk hs h, e⟩
theorem ptext_elems (pr : Nat → Nat → Bytes) : ∀ (ts : List Doc) (ps : List Bytes), AllKeys.elems cleanKey ts →
    AllScalars.elems (AtomOk ft) ts → PText.elems ft ts ps → JText.elems pr (jtree.elems ft ts) ps
  | [], _, _, _, h => h
  | t :: ts, _, hk, hs, ⟨w1, tv, w2, ps', h1, h2, h3, h4, e⟩ =>
    ⟨w1, tv, w2, ps', h1, h2, ptext_jtext pr t tv hk.1 hs.1 h3, ptext_elems pr ts ps' hk.2 hs.2 h4, e⟩
theorem ptext_members (pr : Nat → Nat → Bytes) : ∀ (ms : List (Bytes × Doc)) (ps : List Bytes), AllKeys.members cleanKey ms →
    AllScalars.members (AtomOk ft) ms → PText.members ft ms ps → JText.members pr (jtree.members ft ms) ps
  | [], _, _, _, h => h
  | (k, t) :: ms, _, hk, hs, ⟨w1, w3, tv, w4, ps', h1, h3, h4, ht, hm, e⟩ =>
    ⟨w1, [], w3, tv, w4, ps', h1, by intro c hc; simp at hc, h3, h4, cleanKey_body pr k hk.1, ptext_jtext pr t tv hk.2.1 hs.1 ht,
      ptext_members pr ms ps' hk.2.2 hs.2 hm, by simpa using e⟩
end

/-! ### Tokens -/

/-- The tokens of a document. -/
def toks (ft : FKind → Flt → Bytes) : Doc → List Bytes
  | .scalar a => [atomText ft a]
  | .arr ts => [0x5B] :: elems ts ++ [[0x5D]]
  | .obj ms => [0x7B] :: members ms ++ [[0x7D]]
where
  elems : List Doc → List Bytes
  | [] => []
  | [t] => toks ft t
  | t :: t' :: ts => toks ft t ++ [0x2C] :: elems (t' :: ts)
  members : List (Bytes × Doc) → List Bytes
  | [] => []
  | [(k, t)] => ([0x22] ++ k ++ [0x22]) :: [0x3A] :: toks ft t
  | (k, t) :: m :: ms => ([0x22] ++ k ++ [0x22]) :: [0x3A] :: toks ft t ++ [0x2C] :: members (m :: ms)

theorem Laid.ws {w t : Bytes} {xs : List Bytes} (hw : Ws w) (h : Laid xs t) : Laid xs (w ++ t) := by
  cases h with
  | nil h => exact .nil (ws_append hw h)
  | cons h ht => rw [List.append_assoc, ← List.append_assoc, ← List.append_assoc]; exact .cons (ws_append hw h) ht

theorem ws_nil : Ws [] := by intro c hc; simp at hc

theorem Laid.tok {x t : Bytes} {xs : List Bytes} (h : Laid xs t) : Laid (x :: xs) (x ++ t) := by
  simpa using Laid.cons (x := x) ws_nil h

mutual
theorem ptext_laid : ∀ (d : Doc) (tv : Bytes), PText ft d tv → ∀ (xs : List Bytes) (t : Bytes), Laid xs t → Laid (toks ft d ++ xs) (tv ++ t)
  | .scalar a, tv, h, xs, t, hl => by rw [PText] at h; subst h; exact Laid.tok hl
  | .arr [], tv, ⟨w, hw, e⟩, xs, t, hl => by
    subst e
    simp only [toks, toks.elems, List.append_assoc, List.cons_append, List.nil_append]
    exact Laid.tok (x := [0x5B]) (Laid.ws hw (Laid.tok (x := [0x5D]) hl))
  | .arr (v :: vs), tv, ⟨ps, h, e⟩, xs, t, hl => by
    subst e
    have := elems_laid (v :: vs) ps h _ _ (Laid.tok (x := [0x5D]) hl)
    simp only [toks, List.append_assoc, List.cons_append, List.nil_append] at this ⊢
    exact Laid.tok (x := [0x5B]) this
  | .obj [], tv, ⟨w, hw, e⟩, xs, t, hl => by
    subst e
    simp only [toks, toks.members, List.append_assoc, List.cons_append, List.nil_append]
    exact Laid.tok (x := [0x7B]) (Laid.ws hw (Laid.tok (x := [0x7D]) hl))
  | .obj ((k, v) :: ms), tv, ⟨ps, h, e⟩, xs, t, hl => by
    subst e
    have := members_laid ((k, v) :: ms) ps h _ _ (Laid.tok (x := [0x7D]) hl)
    simp only [toks, List.append_assoc, List.cons_append, List.nil_append] at this ⊢
    exact Laid.tok (x := [0x7B]) this
theorem elems_laid : ∀ (ts : List Doc) (ps : List Bytes), PText.elems ft ts ps → ∀ (xs : List Bytes) (t : Bytes), Laid xs t →
    Laid (toks.elems ft ts ++ xs) (commas ps ++ t)
  | [], ps, h, xs, t, hl => by rw [h]; exact hl
  | [v], ps, ⟨w1, tv, w2, ps', h1, h2, h3, h4, e⟩, xs, t, hl => by
    rw [PText.elems] at h4
    subst h4 e
    simp only [toks.elems, commas, List.append_assoc]
    exact Laid.ws h1 (ptext_laid v tv h3 _ _ (Laid.ws h2 hl))
  | v :: v' :: vs, ps, ⟨w1, tv, w2, ps', h1, h2, h3, h4, e⟩, xs, t, hl => by
    have ih := elems_laid (v' :: vs) ps' h4 xs t hl
    obtain ⟨_, _, _, ps'', _, _, _, _, e'⟩ := h4
    subst e
    rw [e'] at ih ⊢
    simp only [toks.elems, commas, List.append_assoc, List.cons_append, List.nil_append] at ih ⊢
    exact Laid.ws h1 (ptext_laid v tv h3 _ _ (Laid.ws h2 (Laid.tok (x := [0x2C]) ih)))
theorem members_laid : ∀ (ms : List (Bytes × Doc)) (ps : List Bytes), PText.members ft ms ps → ∀ (xs : List Bytes) (t : Bytes), Laid xs t →
    Laid (toks.members ft ms ++ xs) (commas ps ++ t)
  | [], ps, h, xs, t, hl => by rw [h]; exact hl
  | [(k, v)], ps, ⟨w1, w3, tv, w2, ps', h1, h13, h2, h3, h4, e⟩, xs, t, hl => by
    rw [PText.members] at h4
    subst h4 e
    have := Laid.ws h1 (Laid.tok (x := [0x22] ++ k ++ [0x22]) (Laid.tok (x := [0x3A]) (Laid.ws h13 (ptext_laid v tv h3 _ _ (Laid.ws h2 hl)))))
    simpa [toks.members, commas] using this
  | (k, v) :: (k', v') :: ms, ps, ⟨w1, w3, tv, w2, ps', h1, h13, h2, h3, h4, e⟩, xs, t, hl => by
    have ih := members_laid ((k', v') :: ms) ps' h4 xs t hl
    obtain ⟨_, _, _, _, ps'', _, _, _, _, _, e'⟩ := h4
    subst e
    rw [e'] at ih ⊢
    have := Laid.ws h1 (Laid.tok (x := [0x22] ++ k ++ [0x22]) (Laid.tok (x := [0x3A]) (Laid.ws h13 (ptext_laid v tv h3 _ _
      (Laid.ws h2 (Laid.tok (x := [0x2C]) ih))))))
    simpa [toks.members, commas] using this
end

theorem natText_digits (n : Nat) : ∀ c ∈ natText n, isDigit c = true := (dec_iff.1 (natText_dec n)).2.1

theorem digit_not_special {c : Byte} (h : isDigit c = true) : c ∉ b!" \t\n\r\"{}[],:" := by
  revert h
  exact forall_byte (P := fun c => isDigit c = true → c ∉ b!" \t\n\r\"{}[],:") (by decide +kernel) c

theorem dec_not_special {ds : Bytes} {n : Nat} (h : Dec ds n) : ∀ c ∈ ds, c ∉ b!" \t\n\r\"{}[],:" :=
  fun c hc => digit_not_special ((dec_iff.1 h).2.1 c hc)

theorem number_token {t : Bytes} {y : Decimal} (h : JsonNumber t y) : IsToken t := by
  obtain ⟨s, ip, fp, ep, i, len, fr, e, hs, hi, hz, hf, he, rfl, hn, hk⟩ := h
  refine .inr (.inr ⟨?_, ?_⟩)
  · have := (dec_iff.1 hi).1
    simp [this]
  · intro c hc
    have h4 : c ∈ s ∨ c ∈ ip ∨ c ∈ fp ∨ c ∈ ep := by simpa [or_assoc] using hc
    clear hc
    rcases h4 with hc | hc | hc | hc
    · unfold SignText at hs
      rw [hs] at hc
      split at hc
      · simp at hc; rw [hc]; decide
      · simp at hc
    · exact dec_not_special hi c hc
    · rcases hf with ⟨rfl, -, -⟩ | ⟨ds, rfl, hd, -⟩
      · simp at hc
      · rcases List.mem_cons.1 hc with hc | hc
        · rw [hc]; decide
        · exact dec_not_special hd c hc
    · rcases he with ⟨rfl, -⟩ | ⟨b, s', ds, n, hb, hd, rfl, hs'⟩
      · simp at hc
      · have h3 : c = b ∨ c ∈ s' ∨ c ∈ ds := by simpa using hc
        rcases h3 with hc | hc | hc
        · rw [hc]; rcases hb with rfl | rfl <;> decide
        · rcases hs' with ⟨rfl, -⟩ | ⟨rfl, -⟩ | ⟨rfl, -⟩
          · simp at hc
          · simp at hc; rw [hc]; decide
          · simp at hc; rw [hc]; decide
        · exact dec_not_special hd c hc

/-- A text without special characters is a token. -/
theorem plain_token (t : Bytes) (h : (t ≠ [] ∧ ∀ c ∈ t, c ∉ b!" \t\n\r\"{}[],:")) : IsToken t := .inr (.inr h)

/-- The texts of floating point values are tokens. -/
def Tokens (ft : FKind → Flt → Bytes) : Prop := ∀ f x, IsToken (ft f x)

theorem streamText_token : Tokens streamText := by
  intro f x
  cases x with
  | fin neg m E => obtain ⟨y, h, -⟩ := streamText_close f neg m E; exact number_token h
  | inf neg =>
    cases neg
    · exact plain_token b!"inf" (by decide)
    · exact plain_token b!"-inf" (by decide)
  | nan neg =>
    cases neg
    · exact plain_token b!"nan" (by decide)
    · exact plain_token b!"-nan" (by decide)

theorem stringText_token : Tokens stringText := by
  intro f x
  cases x with
  | fin neg m E =>
    by_cases h : m ≠ 0 ∨ neg = false
    · obtain ⟨y, h, -⟩ := stringText_close f neg m E h; exact number_token h
    · have hm : m = 0 := by omega
      have hn : neg = true := by cases neg <;> simp_all
      subst hm hn
      exact plain_token b!"-0." (by decide)
  | inf neg =>
    cases neg
    · exact plain_token b!"inf" (by decide)
    · exact plain_token b!"-inf" (by decide)
  | nan neg =>
    cases neg
    · exact plain_token b!"nan" (by decide)
    · exact plain_token b!"-nan" (by decide)

theorem atom_token (hft : Tokens ft) (a : Atom) : IsToken (atomText ft a) := by
  cases a with
  | null => exact plain_token b!"null" (by decide)
  | bool b =>
    cases b
    · exact plain_token b!"false" (by decide)
    · exact plain_token b!"true" (by decide)
  | str s => exact .inr (.inl ⟨escapeString s, rfl⟩)
  | flt f x => exact hft f x
  | int k i =>
    refine .inr (.inr ⟨lit_ne_nil (intText_lit i), ?_⟩)
    intro c hc
    simp only [atomText, intText] at hc
    split at hc
    · rcases List.mem_cons.1 hc with rfl | hc
      · decide
      · exact digit_not_special (natText_digits _ c hc)
    · exact digit_not_special (natText_digits _ c hc)

mutual
theorem toks_tokens (hft : Tokens ft) : ∀ (d : Doc), ∀ x ∈ toks ft d, IsToken x
  | .scalar a, x, hx => by simp only [toks, List.mem_singleton] at hx; rw [hx]; exact atom_token hft a
  | .arr ts, x, hx => by
    simp only [toks, List.cons_append, List.mem_cons, List.mem_append, List.not_mem_nil, or_false] at hx
    rcases hx with rfl | hx | rfl
    · exact .inl (by decide)
    · exact elems_tokens hft ts x hx
    · exact .inl (by decide)
  | .obj ms, x, hx => by
    simp only [toks, List.cons_append, List.mem_cons, List.mem_append, List.not_mem_nil, or_false] at hx
    rcases hx with rfl | hx | rfl
    · exact .inl (by decide)
    · exact members_tokens hft ms x hx
    · exact .inl (by decide)
theorem elems_tokens (hft : Tokens ft) : ∀ (ts : List Doc), ∀ x ∈ toks.elems ft ts, IsToken x
  | [], x, hx => by simp [toks.elems] at hx
  | [t], x, hx => toks_tokens hft t x hx
  | t :: t' :: ts, x, hx => by
    simp only [toks.elems, List.mem_append, List.mem_cons] at hx
    rcases hx with hx | rfl | hx
    · exact toks_tokens hft t x hx
    · exact .inl (by decide)
    · exact elems_tokens hft (t' :: ts) x hx
theorem members_tokens (hft : Tokens ft) : ∀ (ms : List (Bytes × Doc)), ∀ x ∈ toks.members ft ms, IsToken x
  | [], x, hx => by simp [toks.members] at hx
  | [(k, t)], x, hx => by
    simp only [toks.members, List.mem_cons] at hx
    rcases hx with rfl | rfl | hx
    · exact .inr (.inl ⟨k, rfl⟩)
    · exact .inl (by decide)
    · exact toks_tokens hft t x hx
  | (k, t) :: m :: ms, x, hx => by
    simp only [toks.members, List.cons_append, List.mem_append, List.mem_cons] at hx
    rcases hx with rfl | rfl | hx | rfl | hx
    · exact .inr (.inl ⟨k, rfl⟩)
    · exact .inl (by decide)
    · exact toks_tokens hft t x hx
    · exact .inl (by decide)
    · exact members_tokens hft (m :: ms) x hx
end

/-! ### Export -/

theorem fits_width {cfg : PrintCfg} {n : Nat} (h : FitsIndent cfg n) : FitsW cfg n := by
  refine h.imp_right (fun h k hk => ?_)
  have := h k hk
  unfold indentation at this
  unfold width
  simp only
  generalize (k : Int) * (if cfg.tabSize = 0 then 4 else cfg.tabSize) + 1 + cfg.blockSize = x at this ⊢
  rw [Int.emod_eq_of_lt this.1 (by have := this.2; omega)]
  omega

/-- Exporting a value writes its document. -/
theorem export_doc (env : Env) (cfg : PrintCfg) (ty : Ty) (v : Val) (d : Doc) (h : docOf env cfg.marker ty v = .ok d)
    (hf : FitsIndent cfg (nesting d)) : ∃ w tv ws ss, Ws w ∧ PText streamText d tv ∧ JPrint.run cfg (cmdsOf d) JPrint.init = .ok (ws, ss) ∧
      bytesOf ws = w ++ tv ∧ jsonExport env cfg ty v = .ok (w ++ tv) := by
  obtain ⟨ws, st, w, tv, e, -, -, hw, ht, hb⟩ := run_doc streamText cfg d ⟨0, .Value, false⟩ [] (by simpa using fits_width hf)
  refine ⟨w, tv, ws, [st], hw, ht, e, by simpa [sepOf] using hb, ?_⟩
  simp only [jsonExport, ser_doc, h, Res.map'_ok, Res.ok_bind]
  rw [show JPrint.init = [⟨0, .Value, false⟩] from rfl, e]
  simp [hb, sepOf]

/-- A value that has no document is not exported: the export fails in the same way. -/
theorem export_fails (env : Env) (cfg : PrintCfg) (ty : Ty) (v : Val) (e : Exc) (h : docOf env cfg.marker ty v = .throw e) :
    jsonExport env cfg ty v = .throw e := by
  simp [jsonExport, ser_doc, h]

/-! ### Output to a string -/

theorem putAll_append (a b : List Write) : ∀ s : StrOut, s.putAll (a ++ b) = (s.putAll a >>= fun s => s.putAll b) := by
  induction a with
  | nil => intro s; rfl
  | cons w a ih =>
    intro s
    simp only [List.cons_append, StrOut.putAll]
    cases s.put w with
    | ok s1 => simp [ih]
    | _ => rfl

/-- What the first pass counts for a call. -/
def counted (est : Bool) : Write → Nat
  | .chars b => b.length
  | .value t => if est then 25 else t.length
  | .flt f x => if est then 25 else min 100 (stringText f x).length

theorem pass1 (ws : List Write) : ∀ s : StrOut, s.preFlight = true →
    s.putAll ws = .ok { s with calcSize := s.calcSize + (ws.map (counted s.estimate)).sum } := by
  induction ws with
  | nil => intro s _; simp [StrOut.putAll]
  | cons w ws ih =>
    intro s hp
    cases w with
    | chars b =>
      simp only [StrOut.putAll, StrOut.put, hp, if_true, Res.ok_bind]
      rw [ih _ (by simpa using hp)]
      simp [counted, Nat.add_assoc]
    | value t =>
      simp only [StrOut.putAll, StrOut.put, hp, if_true, Res.ok_bind]
      rw [ih _ (by simpa using hp)]
      simp [counted, Nat.add_assoc]
    | flt f x =>
      simp only [StrOut.putAll, StrOut.put, hp, if_true, Res.ok_bind]
      rw [ih _ (by simpa using hp)]
      simp [counted, Nat.add_assoc]

/-- The room a call of the second pass needs. -/
def need : Write → Nat
  | .flt _ (.fin true 0 _) => 4
  | w => (w.bytesIn stringText).length

theorem length_le_need (w : Write) : (w.bytesIn stringText).length ≤ need w := by
  cases w with
  | chars b => exact Nat.le_refl _
  | value t => exact Nat.le_refl _
  | flt f x =>
    cases x with
    | fin neg m E =>
      cases neg with
      | false => exact Nat.le_refl _
      | true =>
        cases m with
        | zero => show 3 ≤ 4; decide
        | succ m => exact Nat.le_refl _
    | _ => exact Nat.le_refl _

theorem copy_ok {s : StrOut} {p : Nat} (hc : s.current = some p) {t : Bytes} (hl : p + t.length ≤ s.data.length) :
    ∃ data', s.copy t = .ok { s with data := data', current := some (p + t.length) } ∧ data'.length = s.data.length ∧
      data'.take (p + t.length) = s.data.take p ++ t := by
  have e1 : (s.data.take p).length = p := by simp; omega
  refine ⟨s.data.take p ++ t ++ s.data.drop (p + t.length), ?_, ?_, ?_⟩
  · unfold StrOut.copy
    rw [hc]
    simp only
    rw [if_pos hl]
  · simp; omega
  · rw [List.take_left' (by rw [List.length_append, e1])]

theorem put_ok {s : StrOut} {p : Nat} {w : Write} (hp : s.preFlight = false) (hc : s.current = some p) (hl : p + need w ≤ s.data.length) :
    ∃ data', s.put w = .ok { s with data := data', current := some (p + (w.bytesIn stringText).length) } ∧ data'.length = s.data.length ∧
      data'.take (p + (w.bytesIn stringText).length) = s.data.take p ++ w.bytesIn stringText := by
  cases w with
  | chars b =>
    have e : s.put (.chars b) = s.copy b := by simp [StrOut.put, hp]
    rw [e]; exact copy_ok hc (t := b) hl
  | value t =>
    have e : s.put (.value t) = s.copy t := by simp [StrOut.put, hp]
    rw [e]; exact copy_ok hc (t := t) hl
  | flt f x =>
    by_cases hz : ∃ neg E, x = .fin neg 0 E
    · obtain ⟨neg, E, rfl⟩ := hz
      cases neg with
      | false =>
        obtain ⟨d, h1, h2, h3⟩ := copy_ok hc (t := b!"0.0") hl
        refine ⟨d, ?_, h2, h3⟩
        simp only [StrOut.put, hp, Bool.false_eq_true, if_false, h1, Res.ok_bind, Res.pure_eq, hc]
        rfl
      | true =>
        obtain ⟨d, h1, h2, h3⟩ := copy_ok hc (t := b!"-0.0") hl
        refine ⟨d, ?_, h2, ?_⟩
        · simp only [StrOut.put, hp, Bool.false_eq_true, if_false, if_true, h1, Res.ok_bind, Res.pure_eq, hc]
          rfl
        · have e1 : (s.data.take p).length = p := by
            have : need (.flt f (.fin true 0 E)) = 4 := rfl
            rw [this] at hl
            simp; omega
          have h4 := congrArg (List.take (p + 3)) h3
          rw [List.take_take, Nat.min_eq_left (by simp), List.take_append, e1, List.take_of_length_le (by omega : (s.data.take p).length ≤ p + 3)] at h4
          rw [show p + 3 - p = 3 by omega] at h4
          exact h4
    · have hput : s.put (.flt f x) = s.copy (fixed6 f x) := by
        simp only [StrOut.put, hp, Bool.false_eq_true, if_false]
        split
        · rename_i neg E; exact absurd ⟨neg, E, rfl⟩ hz
        · rfl
      have htext : (Write.flt f x).bytesIn stringText = fixed6 f x := by
        simp only [Write.bytesIn]
        unfold stringText
        split
        · rename_i neg E; exact absurd ⟨neg, E, rfl⟩ hz
        · rfl
      have hneed := length_le_need (.flt f x)
      rw [htext] at hneed ⊢
      rw [hput]
      exact copy_ok hc (by omega)

theorem pass2 (ws : List Write) : ∀ (s : StrOut) (p : Nat), s.preFlight = false → s.current = some p → p + (ws.map need).sum ≤ s.data.length →
    ∃ data', s.putAll ws = .ok { s with data := data', current := some (p + (bytesIn stringText ws).length) } ∧ data'.length = s.data.length ∧
      data'.take (p + (bytesIn stringText ws).length) = s.data.take p ++ bytesIn stringText ws := by
  induction ws with
  | nil => intro s p hp hc hl; refine ⟨s.data, ?_, rfl, by simp⟩; obtain ⟨d, c, _, _, _⟩ := s; simp only at hc hl; subst hc; simp [StrOut.putAll]
  | cons w ws ih =>
    intro s p hp hc hl
    rw [List.map_cons, List.sum_cons] at hl
    have hn := length_le_need w
    obtain ⟨d1, h1, h2, h3⟩ := put_ok hp hc (w := w) (by omega)
    obtain ⟨d2, g1, g2, g3⟩ := ih { s with data := d1, current := some (p + (w.bytesIn stringText).length) } (p + (w.bytesIn stringText).length) hp rfl
      (by simp only [h2]; omega)
    refine ⟨d2, ?_, g2.trans h2, ?_⟩
    · simp only [StrOut.putAll, h1, Res.ok_bind, g1]
      rw [bytesIn_cons, List.length_append, Nat.add_assoc]
    · rw [bytesIn_cons, List.length_append, ← Nat.add_assoc, g3, h3, List.append_assoc]

theorem natText_length (k : Nat) : ∀ n, n < 10 ^ (k + 1) → (natText n).length ≤ k + 1 := by
  induction k with
  | zero => intro n h; rw [natText, dif_pos (by simpa using h)]; simp
  | succ k ih =>
    intro n h
    rw [natText]
    split
    · simp
    · have := ih (n / 10) (by rw [Nat.pow_succ] at h; omega)
      simp; omega

/-- An integer of at most 64 bits is written with at most 20 characters. -/
theorem intText_length (i : Int) (h1 : -(2 ^ 63 : Int) ≤ i) (h2 : i < (2 ^ 64 : Int)) : (intText i).length ≤ 20 := by
  unfold intText
  split
  · have := natText_length 18 i.natAbs (by omega)
    simp; omega
  · exact natText_length 19 i.natAbs (by omega)

/-! ### Which values are written -/

/-- What is handed to `writeValue` for a call. -/
def valueText : Cmd → Option Write
  | .addInt _ i => some (.value (intText i))
  | .addFlt f x => some (.flt f x)
  | .addBool b => some (.value (if b then b!"true" else b!"false"))
  | _ => none

/-- Calls of `writeValue`. -/
def Write.isValue : Write → Bool
  | .chars _ => false
  | _ => true

theorem value_out {cfg : PrintCfg} {text : List Write} {ss ss' : List PState} {ws : List Write} (h : value cfg text ss = .ok (ws, ss')) :
    ∀ t : Write, t.isValue = true → t ∈ ws → t ∈ text := by
  intro t hv ht
  cases ss with
  | nil => cases h
  | cons st ss =>
    simp only [value, Res.ok.injEq, Prod.mk.injEq] at h
    rw [← h.1, List.mem_append] at ht
    rcases ht with ht | ht
    · revert ht; cases t <;> first | cases hv; done | (unfold separator; split <;> (try split) <;> simp)
    · exact ht

theorem indent_out {cfg : PrintCfg} {n : Nat} {b : Bool} {c : Byte} {ws : List Write} (h : indentSuffix cfg n b c = .ok ws) :
    ∀ t : Write, t.isValue = true → t ∉ ws := by
  intro t hv
  unfold indentSuffix at h
  split at h
  · cases h; cases t <;> simp_all [Write.isValue]
  · simp only at h
    split at h
    · cases h; cases t <;> simp_all [Write.isValue]
    · cases h

theorem indentPlain_out {cfg : PrintCfg} {n : Nat} {b : Bool} {ws : List Write} (h : indentPlain cfg n b = .ok ws) :
    ∀ t : Write, t.isValue = true → t ∉ ws := by
  intro t hv
  unfold indentPlain at h
  split at h
  · cases h; cases t <;> simp_all [Write.isValue]
  · simp only at h
    split at h
    · cases h; cases t <;> simp_all [Write.isValue]
    · cases h

theorem separator_out (st : PState) (a b : Bool) : ∀ t : Write, t.isValue = true → t ∉ separator st a b := by
  intro t hv
  unfold separator
  cases t <;> simp [Write.isValue] at hv <;> split <;> (try split) <;> simp

theorem step_out {cfg : PrintCfg} {c : Cmd} {ss ss' : List PState} {ws : List Write} (h : step cfg c ss = .ok (ws, ss')) :
    ∀ t : Write, t.isValue = true → t ∈ ws → valueText c = some t := by
  intro t hv ht
  cases ss with
  | nil => cases c <;> cases h
  | cons st ss =>
    cases c with
    | openMap n =>
      simp only [step] at h
      cases hi : indentSuffix cfg ss.length (cfg.layout ≠ .Stream) 0x7B with
      | ok i =>
        rw [hi] at h
        simp only [Res.ok_bind, Res.pure_eq, Res.ok.injEq, Prod.mk.injEq] at h
        rw [← h.1, List.mem_append] at ht
        rcases ht with ht | ht
        · exact absurd ht (separator_out _ _ _ t hv)
        · exact absurd ht (indent_out hi t hv)
      | _ => rw [hi] at h; cases h
    | openArray n =>
      simp only [step] at h
      cases hi : indentSuffix cfg ss.length (cfg.layout ≠ .Stream) 0x5B with
      | ok i =>
        rw [hi] at h
        simp only [Res.ok_bind, Res.pure_eq, Res.ok.injEq, Prod.mk.injEq] at h
        rw [← h.1, List.mem_append] at ht
        rcases ht with ht | ht
        · exact absurd ht (separator_out _ _ _ t hv)
        · exact absurd ht (indent_out hi t hv)
      | _ => rw [hi] at h; cases h
    | closeMap =>
      simp only [step] at h
      split at h
      · cases h
      · cases ss with
        | nil => cases h
        | cons st' ss' =>
          simp only at h
          cases hi : indentSuffix cfg ss'.length (cfg.layout ≠ .Stream) 0x7D with
          | ok i =>
            rw [hi] at h
            simp only [Res.ok_bind, Res.pure_eq, Res.ok.injEq, Prod.mk.injEq] at h
            rw [← h.1] at ht
            exact absurd ht (indent_out hi t hv)
          | _ => rw [hi] at h; cases h
    | closeArray =>
      simp only [step] at h
      split at h
      · cases h
      · cases ss with
        | nil => cases h
        | cons st' ss' =>
          simp only at h
          cases hi : indentSuffix cfg ss'.length (cfg.layout ≠ .Stream ∧ st.f2 = false) 0x5D with
          | ok i =>
            rw [hi] at h
            simp only [Res.ok_bind, Res.pure_eq, Res.ok.injEq, Prod.mk.injEq] at h
            rw [← h.1] at ht
            exact absurd ht (indent_out hi t hv)
          | _ => rw [hi] at h; cases h
    | addKey k =>
      simp only [step] at h
      split at h
      · cases h
      · cases hi : indentPlain cfg ss.length (cfg.layout ≠ .Stream) with
        | ok i =>
          rw [hi] at h
          simp only [Res.ok_bind, Res.pure_eq, Res.ok.injEq, Prod.mk.injEq] at h
          rw [← h.1, List.mem_append, List.mem_append] at ht
          rcases ht with (ht | ht) | ht
          · exact absurd ht (separator_out _ _ _ t hv)
          · exact absurd ht (indentPlain_out hi t hv)
          · cases t <;> simp_all [Write.isValue]
        | _ => rw [hi] at h; cases h
    | addInt k i =>
      simp only [step] at h
      have := value_out h t hv ht
      rw [List.mem_singleton] at this
      rw [this, valueText]
    | addFlt f x =>
      simp only [step] at h
      have := value_out h t hv ht
      rw [List.mem_singleton] at this
      rw [this, valueText]
    | addBool b =>
      simp only [step] at h
      have := value_out h t hv ht
      rw [List.mem_singleton] at this
      rw [this, valueText]
    | addStr s =>
      simp only [step] at h
      have := value_out h t hv ht
      cases t <;> simp_all [Write.isValue]
    | addNull =>
      simp only [step] at h
      have := value_out h t hv ht
      cases t <;> simp_all [Write.isValue]

theorem run_out {cfg : PrintCfg} : ∀ (cs : List Cmd) {ss ss' : List PState} {ws : List Write}, JPrint.run cfg cs ss = .ok (ws, ss') →
    ∀ t : Write, t.isValue = true → t ∈ ws → ∃ c ∈ cs, valueText c = some t
  | [], ss, ss', ws, h, t, hv, ht => by cases h; simp at ht
  | c :: cs, ss, ss', ws, h, t, hv, ht => by
    rw [JPrint.run] at h
    cases h1 : step cfg c ss with
    | ok p =>
      obtain ⟨w, s1⟩ := p
      rw [h1] at h
      simp only [Res.ok_bind] at h
      cases h2 : JPrint.run cfg cs s1 with
      | ok p =>
        obtain ⟨w2, s2⟩ := p
        rw [h2] at h
        simp only [Res.ok_bind, Res.pure_eq, Res.ok.injEq, Prod.mk.injEq] at h
        rw [← h.1, List.mem_append] at ht
        rcases ht with ht | ht
        · exact ⟨c, by simp, step_out h1 t hv ht⟩
        · obtain ⟨c', hc, e⟩ := run_out cs h2 t hv ht
          exact ⟨c', by simp [hc], e⟩
      | _ => rw [h2] at h; cases h
    | _ => rw [h1] at h; cases h

mutual
theorem cmds_atoms (P : Atom → Prop) : ∀ d : Doc, AllScalars P d → ∀ c ∈ cmdsOf d, ∀ t, valueText c = some t →
    ∃ a, P a ∧ c = atomCmd a
  | .scalar a, h, c, hc, t, _ => ⟨a, h, by simpa [cmdsOf] using hc⟩
  | .arr ts, h, c, hc, t, ht => by
    simp only [cmdsOf, List.cons_append, List.mem_cons, List.mem_append, List.not_mem_nil, or_false] at hc
    rcases hc with rfl | hc | rfl
    · cases ht
    · exact cmds_atoms_elems P ts h c hc t ht
    · cases ht
  | .obj ms, h, c, hc, t, ht => by
    simp only [cmdsOf, List.cons_append, List.mem_cons, List.mem_append, List.not_mem_nil, or_false] at hc
    rcases hc with rfl | hc | rfl
    · cases ht
    · exact cmds_atoms_members P ms h c hc t ht
    · cases ht
theorem cmds_atoms_elems (P : Atom → Prop) : ∀ ts : List Doc, AllScalars.elems P ts → ∀ c ∈ cmdsOf.elems ts, ∀ t, valueText c = some t →
    ∃ a, P a ∧ c = atomCmd a
  | [], _, c, hc, _, _ => by simp [cmdsOf.elems] at hc
  | d :: ds, h, c, hc, t, ht => by
    simp only [cmdsOf.elems, List.mem_append] at hc
    rcases hc with hc | hc
    · exact cmds_atoms P d h.1 c hc t ht
    · exact cmds_atoms_elems P ds h.2 c hc t ht
theorem cmds_atoms_members (P : Atom → Prop) : ∀ ts : List (Bytes × Doc), AllScalars.members P ts → ∀ c ∈ cmdsOf.members ts, ∀ t, valueText c = some t →
    ∃ a, P a ∧ c = atomCmd a
  | [], _, c, hc, _, _ => by simp [cmdsOf.members] at hc
  | (k, d) :: ds, h, c, hc, t, ht => by
    simp only [cmdsOf.members, List.cons_append, List.mem_cons, List.mem_append] at hc
    rcases hc with rfl | hc | hc
    · cases ht
    · exact cmds_atoms P d h.1 c hc t ht
    · exact cmds_atoms_members P ds h.2 c hc t ht
end

end Thors
