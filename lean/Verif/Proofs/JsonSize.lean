import Verif.Model.JsonSize
import Verif.Spec.JsonSize
import Verif.Proofs.BsonPrint
import Verif.Proofs.JsonExport
/-
`jsonStreanSize`, and the text in the `Stream` layout.
-/
namespace Thors
open Spec StrIn

/-! ### The text without white space -/
section
open JPrint
variable {ft : FKind → Flt → Bytes}

theorem value_stream (cfg : PrintCfg) (hl : cfg.layout = .Stream) (text : List Write) (st : PState) (ss : List PState) :
    ∃ ws st', value cfg text (st :: ss) = .ok (ws, st' :: ss) ∧ st'.f0 = st.f0 + 1 ∧ st'.f1 = st.f1 ∧
      bytesIn ft ws = sepOf st ++ bytesIn ft text := by
  refine ⟨_, _, rfl, rfl, rfl, ?_⟩
  simp only [hl, ne_eq, not_true_eq_false, false_and, decide_false, bytesIn_append, separator_value]

theorem atom_stream (cfg : PrintCfg) (hl : cfg.layout = .Stream) (a : Atom) (st : PState) (ss : List PState) :
    ∃ ws st', step cfg (atomCmd a) (st :: ss) = .ok (ws, st' :: ss) ∧ st'.f0 = st.f0 + 1 ∧ st'.f1 = st.f1 ∧
      bytesIn ft ws = sepOf st ++ atomText ft a := by
  cases a with
  | null => exact value_stream cfg hl [.chars b!"null"] st ss
  | bool b =>
    have := value_stream (ft := ft) cfg hl [.value (if b then b!"true" else b!"false")] st ss
    rw [bytesIn_cons, bytesIn_nil, Write.bytesIn, List.append_nil] at this
    exact this
  | int k i =>
    have := value_stream (ft := ft) cfg hl [.value (intText i)] st ss
    rw [bytesIn_cons, bytesIn_nil, Write.bytesIn, List.append_nil] at this
    exact this
  | flt f x =>
    have := value_stream (ft := ft) cfg hl [.flt f x] st ss
    rw [bytesIn_cons, bytesIn_nil, Write.bytesIn, List.append_nil] at this
    exact this
  | str s =>
    have := value_stream (ft := ft) cfg hl ([.chars b!"\""] ++ (escapeWrites s).map .chars ++ [.chars b!"\""]) st ss
    have e : bytesIn ft ([.chars b!"\""] ++ (escapeWrites s).map .chars ++ [.chars b!"\""]) = jsonString s := by
      rw [bytesIn_append, bytesIn_append, escapeWrites_bytes]
      simp [Write.bytesIn, jsonString]
    rw [e] at this
    exact this

theorem toks_elems_cons (t : Doc) (ts : List Doc) : (toks.elems ft (t :: ts)).flatten =
    (toks ft t).flatten ++ (if ts = [] then [] else 0x2C :: (toks.elems ft ts).flatten) := by
  cases ts with
  | nil => simp [toks.elems]
  | cons t' ts => simp [toks.elems]

theorem toks_members_cons (k : Bytes) (t : Doc) (ms : List (Bytes × Doc)) : (toks.members ft ((k, t) :: ms)).flatten =
    0x22 :: k ++ [0x22, 0x3A] ++ (toks ft t).flatten ++ (if ms = [] then [] else 0x2C :: (toks.members ft ms).flatten) := by
  cases ms with
  | nil => simp [toks.members]
  | cons m ms => simp [toks.members]

mutual
theorem run_stream (ft : FKind → Flt → Bytes) (cfg : PrintCfg) (hl : cfg.layout = .Stream) : ∀ (d : Doc) (st : PState) (ss : List PState),
    ∃ ws st', run cfg (cmdsOf d) (st :: ss) = .ok (ws, st' :: ss) ∧ st'.f0 = st.f0 + 1 ∧ st'.f1 = st.f1 ∧
      bytesIn ft ws = sepOf st ++ (toks ft d).flatten
  | .scalar a, st, ss => by
    obtain ⟨ws, st', h1, h2, h3, h4⟩ := atom_stream cfg hl a st ss
    exact ⟨ws, st', by simp [cmdsOf, run, h1], h2, h3, by simpa [toks] using h4⟩
  | .arr ts, st, ss => by
    have e1 : ∀ k c, indentSuffix cfg k (decide (cfg.layout ≠ .Stream)) c = .ok [.chars [c]] := by intro k c; simp [hl, indentSuffix]
    obtain ⟨ws2, st2, e2, h2, hb2⟩ := elems_stream ft cfg hl ts ⟨0, .Array, false⟩ (st :: ss) rfl
    have e3 : ∀ k c, indentSuffix cfg k (decide (cfg.layout ≠ .Stream ∧ st2.f2 = false)) c = .ok [.chars [c]] := by
      intro k c; simp [hl, indentSuffix]
    refine ⟨(separator st false false ++ [.chars [0x5B]]) ++ (ws2 ++ [.chars [0x5D]]), { st with f0 := st.f0 + 1 }, ?_, rfl, rfl, ?_⟩
    · simp only [cmdsOf, List.cons_append, run, step, e1, Res.ok_bind, Res.pure_eq, prun_append, e2, h2, ne_eq, not_true_eq_false, if_false]
      simp [e3, hl, indentSuffix]
    · simp [separator_value, hb2, Write.bytesIn, toks]
  | .obj ms, st, ss => by
    have e1 : ∀ k c, indentSuffix cfg k (decide (cfg.layout ≠ .Stream)) c = .ok [.chars [c]] := by intro k c; simp [hl, indentSuffix]
    obtain ⟨ws2, st2, e2, h2, hb2⟩ := members_stream ft cfg hl ms ⟨0, .Map, false⟩ (st :: ss) rfl
    refine ⟨(separator st false false ++ [.chars [0x7B]]) ++ (ws2 ++ [.chars [0x7D]]), { st with f0 := st.f0 + 1 }, ?_, rfl, rfl, ?_⟩
    · simp only [cmdsOf, List.cons_append, run, step, e1, Res.ok_bind, Res.pure_eq, prun_append, e2, h2, ne_eq, not_true_eq_false, if_false]
      simp [hl, indentSuffix]
    · simp [separator_value, hb2, Write.bytesIn, toks]
theorem elems_stream (ft : FKind → Flt → Bytes) (cfg : PrintCfg) (hl : cfg.layout = .Stream) : ∀ (ts : List Doc) (st : PState) (ss : List PState), st.f1 = .Array →
    ∃ ws st', run cfg (cmdsOf.elems ts) (st :: ss) = .ok (ws, st' :: ss) ∧ st'.f1 = .Array ∧
      bytesIn ft ws = (if st.f0 ≠ 0 ∧ ts ≠ [] then [0x2C] else []) ++ (toks.elems ft ts).flatten
  | [], st, ss, ha => ⟨[], st, rfl, ha, by simp [toks.elems]⟩
  | t :: ts, st, ss, ha => by
    obtain ⟨ws, st1, e1, h0, h1, hb⟩ := run_stream ft cfg hl t st ss
    obtain ⟨ws2, st2, e2, h2, hb2⟩ := elems_stream ft cfg hl ts st1 ss (h1.trans ha)
    refine ⟨ws ++ ws2, st2, by simp [cmdsOf.elems, prun_append, e1, e2], h2, ?_⟩
    rw [bytesIn_append, hb, hb2, sepOf, h0, ha, toks_elems_cons]
    cases ts <;> simp [toks.elems]
theorem members_stream (ft : FKind → Flt → Bytes) (cfg : PrintCfg) (hl : cfg.layout = .Stream) : ∀ (ms : List (Bytes × Doc)) (st : PState) (ss : List PState), st.f1 = .Map →
    ∃ ws st', run cfg (cmdsOf.members ms) (st :: ss) = .ok (ws, st' :: ss) ∧ st'.f1 = .Map ∧
      bytesIn ft ws = (if st.f0 ≠ 0 ∧ ms ≠ [] then [0x2C] else []) ++ (toks.members ft ms).flatten
  | [], st, ss, ha => ⟨[], st, rfl, ha, by simp [toks.members]⟩
  | (k, t) :: ms, st, ss, ha => by
    obtain ⟨ws, st1, e1, h0, h1, hb⟩ := run_stream ft cfg hl t st ss
    obtain ⟨ws2, st2, e2, h2, hb2⟩ := members_stream ft cfg hl ms st1 ss (h1.trans ha)
    have e0 : ∀ k, indentPlain cfg k (decide (cfg.layout ≠ .Stream)) = .ok [] := by intro k; simp [hl, indentPlain]
    refine ⟨separator st true false ++ [] ++ [.chars b!"\"", .chars k, .chars b!"\""] ++ (ws ++ ws2), st2, ?_, h2, ?_⟩
    · simp only [cmdsOf.members, List.cons_append, run, step, ha, ne_eq, not_true_eq_false, if_false, e0, Res.ok_bind, Res.pure_eq,
        prun_append, e1, e2]
    · have : bytesIn ft (separator st true false) = if st.f0 ≠ 0 then [0x2C] else [] := by
        unfold separator
        simp only [Bool.true_eq_false, false_and, if_false]
        split <;> rfl
      rw [bytesIn_append, bytesIn_append, bytesIn_append, bytesIn_append, this, hb, hb2, sepOf, h0, if_pos ha, toks_members_cons]
      cases ms <;> simp [toks.members, Write.bytesIn]
end

/-- The `Stream` layout: the tokens of the document, nothing else. -/
theorem export_stream (env : Env) (cfg : PrintCfg) (hl : cfg.layout = .Stream) (ty : Ty) (v : Val) (d : Doc) (h : docOf env cfg.marker ty v = .ok d) :
    jsonExport env cfg ty v = .ok (toks streamText d).flatten := by
  obtain ⟨ws, st, e, -, -, hb⟩ := run_stream streamText cfg hl d ⟨0, .Value, false⟩ []
  simp only [jsonExport, ser_doc, h, Res.map'_ok, Res.ok_bind]
  rw [show JPrint.init = [⟨0, .Value, false⟩] from rfl, e]
  simp [hb, sepOf]

end
/-! ### Sizes -/

/-- Length of the text of a document. -/
def tlen (d : Doc) : Nat := (toks streamText d).flatten.length

/-- Lengths of the elements. -/
def elsum : List Doc → Nat
  | [] => 0
  | t :: ts => tlen t + elsum ts

/-- Lengths of the keys with quotes, and of the values. -/
def memsum : List (Bytes × Doc) → Nat
  | [] => 0
  | (k, t) :: ms => k.length + 2 + tlen t + memsum ms

theorem memsum_append (a b : List (Bytes × Doc)) : memsum (a ++ b) = memsum a + memsum b := by
  induction a with
  | nil => simp [memsum]
  | cons m a ih => obtain ⟨k, t⟩ := m; simp [memsum, ih]; omega

theorem tlen_elems (ts : List Doc) : (toks.elems streamText ts).flatten.length = elsum ts + (ts.length - 1) := by
  induction ts with
  | nil => rfl
  | cons t ts ih =>
    rw [toks_elems_cons, List.length_append, elsum, tlen]
    cases ts with
    | nil => simp [elsum]
    | cons t' ts =>
      rw [if_neg (by simp), List.length_cons, ih]
      simp; omega

theorem tlen_members (ms : List (Bytes × Doc)) : (toks.members streamText ms).flatten.length = memsum ms + ms.length + (ms.length - 1) := by
  induction ms with
  | nil => rfl
  | cons m ms ih =>
    obtain ⟨k, t⟩ := m
    rw [toks_members_cons, List.length_append, List.length_append, memsum, tlen]
    cases ms with
    | nil => simp [memsum]; omega
    | cons m' ms =>
      rw [if_neg (by simp), List.length_cons, ih]
      simp; omega

theorem tlen_arr (ts : List Doc) : tlen (.arr ts) = JSize.sizeArray ts.length + elsum ts := by
  have := tlen_elems ts
  rw [tlen, toks]
  simp only [List.flatten_cons, List.flatten_append, List.length_append, List.length_cons, List.length_nil, List.flatten_nil, JSize.sizeArray,
    List.cons_append, this]
  cases ts <;> simp <;> omega

theorem tlen_obj (ms : List (Bytes × Doc)) : tlen (.obj ms) = JSize.sizeMap ms.length + memsum ms := by
  have := tlen_members ms
  rw [tlen, toks]
  simp only [List.flatten_cons, List.flatten_append, List.length_append, List.length_cons, List.length_nil, List.flatten_nil, JSize.sizeMap,
    List.cons_append, this]
  cases ms <;> simp <;> omega

theorem tlen_atom (a : Atom) : tlen (.scalar a) = (atomText streamText a).length := by simp [tlen, toks]

theorem tlen_str {s : Bytes} (h : cleanKey s) : tlen (.scalar (.str s)) = JSize.sizeStr s := by
  rw [tlen_atom]
  simp [atomText, jsonString, escape_clean h, JSize.sizeStr]

theorem allMembers_append {P : Atom → Prop} (a b : List (Bytes × Doc)) (h : AllScalars.members P (a ++ b)) :
    AllScalars.members P a ∧ AllScalars.members P b := by
  induction a with
  | nil => exact ⟨trivial, h⟩
  | cons m a ih =>
    obtain ⟨k, t⟩ := m
    have := ih h.2
    exact ⟨⟨h.1, this.1⟩, this.2⟩

section
open JSize
variable (lg : Flt → Nat) (sh : FKind → Flt → Bytes) (env : Env) (mk : Bytes) (info : BPrint.SizeInfo) (B : Nat)

/-- The logarithm is right below a bound. -/
def LogOk (lg : Flt → Nat) (B : Nat) : Prop := ∀ n, 0 < n → n < B → lg (intFlt f64 n) = (natText n).length

theorem size_int (hlg : LogOk lg B) (k : IntKind) (i : Int) (h : sizedAtom B sh (.int k i)) :
    sizeInt lg k i = .ok (tlen (.scalar (.int k i))) := by
  obtain ⟨h1, h2, h3⟩ := h
  have hd : sizeDigits lg i.natAbs = (natText i.natAbs).length := by
    unfold sizeDigits
    split
    · rename_i h0; rw [h0, natText]; rfl
    · exact hlg _ (by omega) h1
  rw [tlen_atom]
  unfold sizeInt atomText intText
  simp only
  cases hs : k.signed with
  | true =>
    simp only [if_true]
    rw [if_neg (fun hh => h3 hh.1 hh.2), hd]
    split <;> simp
  | false =>
    simp only [Bool.false_eq_true, if_false]
    rw [if_neg (by have := h2 hs; omega), hd]

theorem size_flt (f : FKind) (x : Flt) (h : sizedAtom B sh (.flt f x)) : sizeFlt sh f x = tlen (.scalar (.flt f x)) := by
  rw [tlen_atom]
  rcases h with ⟨E, rfl⟩ | ⟨h1, h2⟩
  · rfl
  · show sizeFlt sh f x = (streamText f x).length
    rw [← h2]
    unfold sizeFlt
    split
    · exact absurd rfl (h1 _ _)
    · rfl

variable (hlg : LogOk lg B)
include hlg

mutual
theorem jsize_doc : ∀ (v : Val) (p : Bool) (ty : Ty) (d : Doc), docOf env mk ty v = .ok d → JSizeKnown env info p ty v →
    AllScalars (sizedAtom B sh) d → psize lg sh env mk info p ty v = .ok (tlen d)
  | .int i, p, ty, d, h, hk, ha => by
    cases ty <;> simp [docOf] at h
    subst h; rw [psize]; exact size_int lg sh B hlg _ _ ha
  | .flt x, p, ty, d, h, hk, ha => by
    cases ty <;> simp [docOf] at h
    subst h; rw [psize, size_flt sh B _ _ ha]
  | .bool b, p, ty, d, h, hk, ha => by
    cases ty <;> simp [docOf] at h
    subst h; cases b <;> rfl
  | .str s, p, ty, d, h, hk, ha => by
    cases ty <;> simp [docOf] at h
    subst h; rw [psize, tlen_str ha]
  | .none, p, ty, d, h, hk, ha => by cases ty <;> simp [docOf, throwStd] at h
  | .null, p, ty, d, h, hk, ha => by
    cases ty <;> simp [docOf] at h <;> subst h <;> rfl
  | .some v, p, ty, d, h, hk, ha => by
    cases ty <;> simp [docOf] at h
    rw [psize]; exact jsize_doc v p _ d h hk ha
  | .ptr v, p, ty, d, h, hk, ha => by
    cases ty <;> simp [docOf] at h
    rw [psize]; exact jsize_doc v true _ d h hk ha
  | .list vs, p, ty, d, h, hk, ha => by
    cases ty with
    | seq k t =>
      rw [docOf] at h
      obtain ⟨ds, h1, h2⟩ := Res.bind_ok h
      obtain rfl := Res.ok_inj h2
      obtain ⟨e, hl⟩ := jsizeList_doc vs t ds h1 hk ha
      rw [psize, e, tlen_arr, hl]; rfl
    | arr m t =>
      rw [docOf] at h
      obtain ⟨ds, h1, h2⟩ := Res.bind_ok h
      obtain rfl := Res.ok_inj h2
      obtain ⟨e, hl⟩ := jsizeList_doc vs t ds h1 hk ha
      rw [psize, e, tlen_arr, hl]; rfl
    | named i =>
      rw [docOf] at h
      rw [JSizeKnown] at hk
      rw [psize]
      cases hd : env.defs i <;> simp only [hd] at h hk ⊢ <;> try (cases h; done)
      rename_i ts
      obtain ⟨ds, h1, h2⟩ := Res.bind_ok h
      obtain rfl := Res.ok_inj h2
      obtain ⟨e, hl⟩ := jsizeTuple_doc vs ts ds h1 hk ha
      rw [e, tlen_arr, hl]; rfl
    | _ => simp [docOf] at h
  | .dict kvs, p, ty, d, h, hk, ha => by
    cases ty with
    | smap t | mmap t | umap t =>
      rw [JSizeKnown] at hk
      subst hk
      obtain rfl := Res.ok_inj h
      rfl
    | _ => simp [docOf] at h
  | .enum e, p, ty, d, h, hk, ha => by
    cases ty with
    | named i =>
      rw [docOf] at h
      rw [psize]
      cases hd : env.defs i <;> simp only [hd] at h ⊢ <;> try (cases h; done)
      rename_i table
      simp only [enumName]
      cases hl : table.lookup e with
      | none => rw [hl] at h; cases h
      | some s => rw [hl] at h; obtain rfl := Res.ok_inj h; rw [tlen_str ha]
    | _ => simp [docOf] at h
  | .obj ps fs, p, ty, d, h, hk, ha => by
    cases ty with
    | named i =>
      rw [docOf] at h
      rw [JSizeKnown] at hk
      rw [psize]
      cases hd : env.defs i with
      | cls c =>
        obtain ⟨⟨dps, ms, f⟩, name, field⟩ := c
        simp only [hd] at h hk ⊢
        obtain ⟨own, h1, h⟩ := Res.bind_ok h
        obtain ⟨up, h2, h⟩ := Res.bind_ok h
        obtain rfl := Res.ok_inj h
        obtain ⟨hp, hk1, hk2, hk3⟩ := hk
        obtain ⟨ha1, ha2⟩ := allMembers_append _ _ ha
        obtain ⟨ha2, ha3⟩ := allMembers_append _ _ ha2
        rw [jsizeOwn_doc fs f (.obj ps fs) ms own h1 hk2 ha2, jsizeParents_doc ps dps up h2 hk3 ha3]
        simp only [hp, if_false, Bool.false_eq_true, Res.ok_bind]
        have hc : (if info.virt i = true then p else field.isSome) = field.isSome := by
          split
          · rename_i hv; exact hk1 hv
          · rfl
        rw [hc, tlen_obj]
        cases field with
        | none =>
          simp only [Option.isSome_none, Bool.false_eq_true, if_false, List.nil_append, memsum_append, List.length_append]
          rfl
        | some fn =>
          have hn : cleanKey name := ha1.1
          simp only [Option.isSome_some, if_true, memsum_append, List.cons_append, List.nil_append, memsum, tlen_str hn, List.length_cons,
            List.length_append, sizeMember]
          rw [show own.length + up.length + 1 = 1 + own.length + up.length by omega]
          exact congrArg Res.ok (by omega)
      | _ => simp [hd] at h
    | _ => simp [docOf] at h
  | .dyn c v, p, ty, d, h, hk, ha => by
    cases ty with
    | pptr b =>
      cases v with
      | obj ps fs =>
        rw [docOf] at h
        rw [JSizeKnown] at hk
        rw [psize]
        cases hd : env.defs c with
        | cls cd =>
          obtain ⟨⟨dps, ms, f⟩, name, field⟩ := cd
          simp only [hd] at h hk ⊢
          obtain ⟨own, h1, h⟩ := Res.bind_ok h
          obtain ⟨up, h2, h⟩ := Res.bind_ok h
          obtain rfl := Res.ok_inj h
          obtain ⟨hn, ha⟩ := ha
          have hn : cleanKey name := hn
          obtain ⟨ha2, ha3⟩ := allMembers_append _ _ ha
          rw [jsizeOwn_doc fs f (.obj ps fs) ms own h1 hk.1 ha2, jsizeParents_doc ps dps up h2 hk.2 ha3]
          simp only [Res.ok_bind, tlen_obj, memsum_append, memsum, tlen_str hn, List.length_cons, List.length_append, sizeMember]
          rw [show own.length + up.length + 1 = 1 + own.length + up.length by omega]
          exact congrArg Res.ok (by omega)
        | _ => simp [hd] at h
      | _ => simp [docOf] at h
    | _ => simp [docOf] at h
  | .alt c v, p, ty, d, h, hk, ha => by
    cases ty with
    | named i =>
      cases v with
      | obj ps fs =>
        rw [docOf] at h
        rw [JSizeKnown] at hk
        rw [psize]
        cases hd : env.defs c with
        | cls cd =>
          obtain ⟨⟨dps, ms, f⟩, name, field⟩ := cd
          simp only [hd] at h hk ⊢
          obtain ⟨own, h1, h⟩ := Res.bind_ok h
          obtain ⟨up, h2, h⟩ := Res.bind_ok h
          obtain rfl := Res.ok_inj h
          obtain ⟨hn, ha⟩ := ha
          have hn : cleanKey name := hn
          obtain ⟨ha2, ha3⟩ := allMembers_append _ _ ha
          rw [jsizeOwn_doc fs f (.obj ps fs) ms own h1 hk.2.1 ha2, jsizeParents_doc ps dps up h2 hk.2.2 ha3]
          have hc : (if info.virt c = true then p else field.isSome) = true := by
            have := hk.1
            split
            · rename_i hv; rw [if_pos hv] at this; exact this
            · rename_i hv; rw [if_neg hv] at this; exact this
          simp only [hc, if_true, Res.ok_bind, tlen_obj, memsum_append, memsum, tlen_str hn, List.length_cons, List.length_append, sizeMember]
          rw [show own.length + up.length + 1 = 1 + own.length + up.length by omega]
          exact congrArg Res.ok (by omega)
        | _ => simp [hd] at h
      | _ => simp [docOf] at h
    | _ => simp [docOf] at h
termination_by structural v => v
theorem jsizeList_doc : ∀ (vs : List Val) (t : Ty) (ds : List Doc), docList env mk t vs = .ok ds → JSizeKnownList env info t vs →
    AllScalars.elems (sizedAtom B sh) ds → psizeList lg sh env mk info t vs = .ok (elsum ds) ∧ ds.length = vs.length
  | [], t, ds, h, hk, ha => by
    obtain rfl := Res.ok_inj h
    exact ⟨rfl, rfl⟩
  | v :: vs, t, ds, h, hk, ha => by
    rw [docList] at h
    obtain ⟨a, h1, h⟩ := Res.bind_ok h
    obtain ⟨b, h2, h⟩ := Res.bind_ok h
    obtain rfl := Res.ok_inj h
    obtain ⟨e, hl⟩ := jsizeList_doc vs t b h2 hk.2 ha.2
    refine ⟨?_, by simp [hl]⟩
    rw [psizeList, jsize_doc v false t a h1 hk.1 ha.1, e]; rfl
termination_by structural vs => vs
theorem jsizeTuple_doc : ∀ (vs : List Val) (ts : List Ty) (ds : List Doc), docTuple env mk ts vs = .ok ds → JSizeKnownTuple env info ts vs →
    AllScalars.elems (sizedAtom B sh) ds → psizeTuple lg sh env mk info ts vs = .ok (elsum ds) ∧ ds.length = ts.length
  | [], [], ds, h, hk, ha => by
    obtain rfl := Res.ok_inj h
    exact ⟨rfl, rfl⟩
  | [], _ :: _, ds, h, hk, ha => by cases h
  | _ :: _, [], ds, h, hk, ha => by cases h
  | v :: vs, t :: ts, ds, h, hk, ha => by
    rw [docTuple] at h
    obtain ⟨a, h1, h⟩ := Res.bind_ok h
    obtain ⟨b, h2, h⟩ := Res.bind_ok h
    obtain rfl := Res.ok_inj h
    obtain ⟨e, hl⟩ := jsizeTuple_doc vs ts b h2 hk.2 ha.2
    refine ⟨?_, by simp [hl]⟩
    rw [psizeTuple, jsize_doc v false t a h1 hk.1 ha.1, e]; rfl
termination_by structural vs => vs
theorem jsizeOwn_doc : ∀ (vs : List Val) (f : Option (Val → Bytes → Bool)) (self : Val) (ms : List Member) (ds : List (Bytes × Doc)),
    docOwn env mk f self ms vs = .ok ds → JSizeKnownOwn env info ms vs →
    AllScalars.members (sizedAtom B sh) ds → psizeOwn lg sh env mk info f self ms vs = .ok (ds.length, memsum ds)
  | [], f, self, [], ds, h, hk, ha => by
    obtain rfl := Res.ok_inj h
    rfl
  | [], f, self, _ :: _, ds, h, hk, ha => by cases h
  | _ :: _, f, self, [], ds, h, hk, ha => by cases h
  | v :: vs, f, self, m :: ms, ds, h, hk, ha => by
    rw [docOwn] at h
    rw [psizeOwn]
    by_cases hs : shown f self m v
    · rw [if_pos hs] at h
      rw [if_pos ((keep_iff f self m v).2 hs)]
      obtain ⟨a, h1, h⟩ := Res.bind_ok h
      obtain ⟨b, h2, h⟩ := Res.bind_ok h
      obtain rfl := Res.ok_inj h
      rw [jsize_doc v false m.ty a h1 hk.1 ha.1, jsizeOwn_doc vs f self ms b h2 hk.2 ha.2]
      simp only [Res.ok_bind, List.length_cons, Nat.add_comm 1, memsum, sizeMember]
      rfl
    · rw [if_neg hs] at h
      rw [if_neg (fun h => hs ((keep_iff f self m v).1 h))]
      exact jsizeOwn_doc vs f self ms ds h hk.2 ha
termination_by structural vs => vs
theorem jsizeParents_doc : ∀ (vs : List Val) (ds : List StructDef) (dd : List (Bytes × Doc)),
    docParents env mk ds vs = .ok dd → JSizeKnownParents env info ds vs →
    AllScalars.members (sizedAtom B sh) dd → psizeParents lg sh env mk info ds vs = .ok (dd.length, memsum dd)
  | [], [], dd, h, hk, ha => by
    obtain rfl := Res.ok_inj h
    rfl
  | [], .mk _ _ _ :: _, dd, h, hk, ha => by cases h
  | _ :: _, [], dd, h, hk, ha => by cases h
  | .obj ps fs :: vs, .mk dps ms f :: ds, dd, h, hk, ha => by
    rw [docParents] at h
    obtain ⟨own, h1, h⟩ := Res.bind_ok h
    obtain ⟨up, h2, h⟩ := Res.bind_ok h
    obtain ⟨b, h3, h⟩ := Res.bind_ok h
    obtain rfl := Res.ok_inj h
    obtain ⟨hk1, hk2, hk3⟩ := hk
    obtain ⟨ha12, ha3⟩ := allMembers_append _ _ ha
    obtain ⟨ha1, ha2⟩ := allMembers_append _ _ ha12
    rw [psizeParents, jsizeOwn_doc fs f (.obj ps fs) ms own h1 hk1 ha1, jsizeParents_doc ps dps up h2 hk2 ha2, jsizeParents_doc vs ds b h3 hk3 ha3]
    simp [memsum_append, Nat.add_assoc]
  | .int _ :: _, .mk _ _ _ :: _, _, h, _, _ => by cases h
  | .flt _ :: _, .mk _ _ _ :: _, _, h, _, _ => by cases h
  | .bool _ :: _, .mk _ _ _ :: _, _, h, _, _ => by cases h
  | .str _ :: _, .mk _ _ _ :: _, _, h, _, _ => by cases h
  | .enum _ :: _, .mk _ _ _ :: _, _, h, _, _ => by cases h
  | .list _ :: _, .mk _ _ _ :: _, _, h, _, _ => by cases h
  | .dict _ :: _, .mk _ _ _ :: _, _, h, _, _ => by cases h
  | .none :: _, .mk _ _ _ :: _, _, h, _, _ => by cases h
  | .some _ :: _, .mk _ _ _ :: _, _, h, _, _ => by cases h
  | .null :: _, .mk _ _ _ :: _, _, h, _, _ => by cases h
  | .ptr _ :: _, .mk _ _ _ :: _, _, h, _, _ => by cases h
  | .dyn _ _ :: _, .mk _ _ _ :: _, _, h, _, _ => by cases h
  | .alt _ _ :: _, .mk _ _ _ :: _, _, h, _, _ => by cases h
termination_by structural vs => vs
end

end
end Thors
