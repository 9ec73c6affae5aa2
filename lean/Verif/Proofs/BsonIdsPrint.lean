import Verif.Proofs.BsonIds
import Verif.Proofs.Mongo
/-
The BSON printer with an `idStore` and with projections: the bytes written.
-/
namespace Thors
open Spec StrIn

namespace BIds

/-- Only characters. -/
def Chars (ws : List Write) : Prop := ∀ w ∈ ws, ∃ b, w = .chars b

theorem Chars.append {a b : List Write} (ha : Chars a) (hb : Chars b) : Chars (a ++ b) := fun w hw => (List.mem_append.1 hw).elim (ha w) (hb w)

theorem Chars.one (b : Bytes) : Chars [.chars b] := fun w hw => ⟨b, by simpa using hw⟩

theorem Chars.nil : Chars [] := fun w hw => by cases hw

/-- The state `s` writes `pre type size` in front of the next element, and goes on with `s1`. -/
structure Heads (s : BPrint.St) (pre : Byte → Option Nat → Bytes) (s1 : BPrint.St) : Prop where
  writes : ∀ type size, ∃ ws, BPrint.writeKey type size s = .ok (ws, s1) ∧ bytesOf ws = pre type size ∧ Chars ws
  conts : s1.conts = s.conts

/-- The prefix of an element with the given name. -/
def named (name : Bytes) : Byte → Option Nat → Bytes := fun type _ => type :: name ++ [0x00]

theorem heads_array (cs : List BCont) (i : Nat) (is : List Nat) (key : Bytes) :
    Heads ⟨.Array :: cs, i :: is, key⟩ (named (decimal i)) ⟨.Array :: cs, (i + 1) :: is, key⟩ :=
  ⟨fun type size => ⟨_, rfl, by simp [bytesOf, Write.bytesIn, bytesIn, natText_decimal, named], by simp [Chars]⟩, rfl⟩

theorem heads_map (cs : List BCont) (is : List Nat) (key : Bytes) : Heads ⟨.Map :: cs, is, key⟩ (named key) ⟨.Map :: cs, is, key⟩ :=
  ⟨fun type size => ⟨_, rfl, by simp [bytesOf, Write.bytesIn, bytesIn, named], by simp [Chars]⟩, rfl⟩

/-- The prefix at the top level. -/
def topPre (type : Byte) : Option Nat → Bytes
  | none => []
  | some n => le 4 (4 + 1 + 2 + n + 1 : Nat) ++ [type, 0x30, 0x00]

theorem heads_top (key : Bytes) : Heads ⟨[], [], key⟩ topPre ⟨[], [], key⟩ := by
  refine ⟨fun type size => ?_, rfl⟩
  cases size with
  | none => exact ⟨_, rfl, rfl, Chars.nil⟩
  | some n => exact ⟨_, rfl, by simp [bytesOf, Write.bytesIn, bytesIn, topPre, leBytes_eq_le], by simp [Chars]⟩

/-- The size handed to `writeKey`. -/
def sizeArg : BTree → Option Nat
  | .scalar x => some x.payload.length
  | _ => none

section
variable (fresh : Nat → ObjectID)

/-- `f`, started in `s`, writes `b`, uses `k` identifiers and stores them, and leaves the printer in the state `s1` but for the key. -/
def Writes (f : St → Res (List Write × St)) (s : St) (b : Bytes) (s1 : BPrint.St) (k : Nat) : Prop :=
  ∃ ws key, f s = .ok (ws, ⟨{ s1 with key := key }, s.made + k, s.store.map (· ++ (List.range' s.made k).map fresh)⟩) ∧ bytesOf ws = b ∧ Chars ws

variable {fresh}

theorem Writes.nil (s : St) : Writes fresh (fun s => .ok ([], s)) s [] s.st 0 :=
  ⟨[], s.st.key, by cases s; simp, rfl, Chars.nil⟩

theorem Writes.andThen {a b : St → Res (List Write × St)} {s : St} {x y : Bytes} {s1 s2 : BPrint.St} {j k : Nat} (h1 : Writes fresh a s x s1 j)
    (h2 : ∀ s' : St, (∃ key, s'.st = { s1 with key := key }) → s'.made = s.made + j → s'.store.isSome = s.store.isSome → Writes fresh b s' y s2 k) :
    Writes fresh (andThen a b) s (x ++ y) s2 (j + k) := by
  obtain ⟨ws, key, e, hb, hc⟩ := h1
  obtain ⟨ws2, key2, e2, hb2, hc2⟩ := h2 ⟨{ s1 with key := key }, s.made + j, s.store.map (· ++ (List.range' s.made j).map fresh)⟩ ⟨key, rfl⟩ rfl (by simp)
  refine ⟨ws ++ ws2, key2, ?_, by rw [bytesOf_append, hb, hb2], hc.append hc2⟩
  rw [BIds.andThen, e]
  simp only [Res.ok_bind, e2, Res.pure_eq, Res.ok.injEq, Prod.mk.injEq, true_and, St.mk.injEq]
  refine ⟨by omega, ?_⟩
  cases s.store with
  | none => rfl
  | some l => simp [← List.range'_append_1]

theorem Writes.congr {f : St → Res (List Write × St)} {s : St} {b b' : Bytes} {s1 : BPrint.St} {k k' : Nat} (h : Writes fresh f s b s1 k) (hb : b = b')
    (hk : k = k') : Writes fresh f s b' s1 k' := hb ▸ hk ▸ h

theorem andThen_assoc (a b c : St → Res (List Write × St)) (s : St) : andThen (andThen a b) c s = andThen a (andThen b c) s := by
  unfold andThen
  cases h : a s with
  | ok r =>
    obtain ⟨x, s1⟩ := r
    simp only [Res.ok_bind, h]
    cases h2 : b s1 with
    | ok r =>
      obtain ⟨y, s2⟩ := r
      simp only [Res.ok_bind, Res.pure_eq]
      cases h3 : c s2 with
      | ok r => simp
      | throw e => rfl
      | ub => rfl
    | throw e => rfl
    | ub => rfl
  | throw e => simp [h]
  | ub => simp [h]

variable (fresh) (proj : Bool)

theorem addKey_andThen (k : Bytes) (f : St → Res (List Write × St)) (s : St) (cs : List BCont) (h : s.st.conts = .Map :: cs) :
    andThen (step fresh proj (.addKey k)) f s = f { s with st := { s.st with key := k } } := by
  have : step fresh proj (.addKey k) s = .ok ([], { s with st := { s.st with key := k } }) := by
    simp only [step, lift, BPrint.step, h, ne_eq, not_true_eq_false, if_false, Res.ok_bind, Res.pure_eq]
  rw [andThen, this, Res.ok_bind]
  dsimp only
  generalize f { s with st := { s.st with key := k } } = r
  cases r with
  | ok r => rfl
  | throw e => rfl
  | ub => rfl

/-- A key and a value. -/
theorem Writes.member {k : Bytes} {f : St → Res (List Write × St)} {s : St} {b : Bytes} {j : Nat} {cs : List BCont} (h : s.st.conts = .Map :: cs)
    (hf : ∀ s' : St, s'.st = { s.st with key := k } → s'.made = s.made → s'.store.isSome = s.store.isSome → Heads s'.st (named k) s'.st →
      Writes fresh f s' b s'.st j) :
    Writes fresh (BIds.andThen (step fresh proj (.addKey k)) f) s b s.st j := by
  obtain ⟨⟨conts, idx, key⟩, made, store⟩ := s
  subst h
  have := hf ⟨⟨.Map :: cs, idx, k⟩, made, store⟩ rfl rfl rfl (heads_map cs idx k)
  obtain ⟨ws, key', e, hb⟩ := this
  exact ⟨ws, key', by rw [addKey_andThen fresh proj k f _ cs rfl]; exact e, hb⟩

/-- Strings must not need escapes, unless they are not written. -/
def Plain (a : Atom) : Prop := proj = true ∨ plainAtom a

theorem atomBody_chars (a : Atom) : Chars (atomBody a) := by
  cases a <;> simp [Chars, atomBody]
  rintro _ (⟨b, -, rfl⟩ | rfl) <;> exact ⟨_, rfl⟩

theorem atom_writes (a : Atom) (h : Plain proj a) {s : St} {pre : Byte → Option Nat → Bytes} {s1 : BPrint.St} (hh : Heads s.st pre s1) :
    Writes fresh (step fresh proj (atomCmd a)) s (pre (scalar proj a).code (some (scalar proj a).payload.length) ++ (scalar proj a).payload) s1 0 := by
  have hs : step fresh proj (atomCmd a) s = lift (if proj then BPrint.step (.addInt ⟨32, true⟩ 1) else BPrint.step (atomCmd a)) s := by
    cases a <;> rfl
  unfold Writes
  rw [hs]
  cases proj with
  | true =>
    obtain ⟨ws, e, hb, hc⟩ := hh.writes 0x10 (some 4)
    refine ⟨ws ++ [.chars (leBytes 4 1)], s1.key, ?_, ?_, hc.append (Chars.one _)⟩
    · have : BPrint.step (.addInt ⟨32, true⟩ 1) s.st = .ok (ws ++ [.chars (leBytes 4 1)], s1) := by
        simp only [BPrint.step, BPrint.element]
        show (BPrint.writeKey 0x10 (some 4) s.st >>= _) = _
        rw [e]
        rfl
      simp only [lift, if_true, this, Res.ok_bind, Res.pure_eq, Nat.add_zero]
      simp
    · rw [bytesOf_append, hb]
      rfl
  | false =>
    have hp : plainAtom a := h.resolve_left (by simp)
    obtain ⟨ws, e, hb, hc⟩ := hh.writes (bscalar a).code (some (bytesOf (atomBody a)).length)
    refine ⟨ws ++ atomBody a, s1.key, ?_, ?_, hc.append (atomBody_chars a)⟩
    · simp only [lift, Bool.false_eq_true, if_false, bson_step_atom, BPrint.element, e, Res.ok_bind, Res.pure_eq, Nat.add_zero]
      simp
    · rw [bytesOf_append, hb, atomBody_bytes a hp]
      rfl

theorem array_writes {n : Nat} {body : St → Res (List Write × St)} {s : St} {pre : Byte → Option Nat → Bytes} {s1 : BPrint.St} (hh : Heads s.st pre s1)
    {b : Bytes} {i k : Nat} (hn : 4 + b.length + 1 = n)
    (hb : ∀ s' : St, s'.st = ⟨.Array :: s.st.conts, 0 :: s1.idx, s1.key⟩ → s'.made = s.made → s'.store.isSome = s.store.isSome →
      Writes fresh body s' b ⟨.Array :: s.st.conts, i :: s1.idx, s1.key⟩ k) :
    Writes fresh (block fresh proj (.ok n) .openArray .closeArray body) s (pre 0x04 none ++ framed b) s1 k := by
  obtain ⟨ws, e, hw, hc⟩ := hh.writes 0x04 none
  obtain ⟨ws2, key, e2, hb2, hc2⟩ := hb ⟨⟨.Array :: s.st.conts, 0 :: s1.idx, s1.key⟩, s.made, s.store⟩ rfl rfl rfl
  refine ⟨ws ++ [.chars (leBytes 4 n)] ++ (ws2 ++ [.chars [0x00]]), key, ?_, ?_, (hc.append (Chars.one _)).append (hc2.append (Chars.one _))⟩
  · have h1 : step fresh proj (.openArray n) s = .ok (ws ++ [.chars (leBytes 4 n)], ⟨⟨.Array :: s.st.conts, 0 :: s1.idx, s1.key⟩, s.made, s.store⟩) := by
      simp only [step, lift, BPrint.step, e, Res.ok_bind, Res.pure_eq, hh.conts]
    simp only [block, Res.ok_bind, h1, e2]
    simp only [step, lift, BPrint.step, ne_eq, not_true_eq_false, if_false, Res.ok_bind, Res.pure_eq]
    rw [← hh.conts]
  · subst hn
    simp only [bytesOf_append, hw, hb2, framed, leBytes_eq_le]
    simp [bytesOf, Write.bytesIn, bytesIn]

theorem objectId_bson (o : ObjectID) : o.bson = objectIdBytes o := by
  rw [ObjectID.bson, objectIdBytes, beBytes_eq (by decide), beBytes_eq (by decide), beBytes_eq (by decide)]
  simp only [be, leBytes_eq_le]

theorem map_writes {n : Nat} {body : St → Res (List Write × St)} {s : St} {pre : Byte → Option Nat → Bytes} {s1 : BPrint.St} (hh : Heads s.st pre s1)
    {b : Bytes} {k : Nat}
    (hn : 4 + (bpayload.members (if needId s.store.isSome s.st.conts then [idMember (fresh s.made)] else []) ++ b).length + 1 = n)
    (hb : ∀ s' : St, (∃ key, s'.st = ⟨.Map :: s.st.conts, s1.idx, key⟩) →
      s'.made = s.made + (if needId s.store.isSome s.st.conts then 1 else 0) → s'.store.isSome = s.store.isSome →
      Writes fresh body s' b s'.st k) :
    Writes fresh (block fresh proj (.ok n) .openMap .closeMap body) s
      (pre 0x03 none ++ framed (bpayload.members (if needId s.store.isSome s.st.conts then [idMember (fresh s.made)] else []) ++ b)) s1
      ((if needId s.store.isSome s.st.conts then 1 else 0) + k) := by
  obtain ⟨ws, e, hw, hc⟩ := hh.writes 0x03 none
  cases hi : needId s.store.isSome s.st.conts with
  | false =>
    simp only [hi, Bool.false_eq_true, if_false, Nat.add_zero] at hb hn ⊢
    obtain ⟨ws2, key, e2, hb2, hc2⟩ := hb ⟨⟨.Map :: s.st.conts, s1.idx, s1.key⟩, s.made, s.store⟩ ⟨_, rfl⟩ rfl rfl
    refine ⟨ws ++ [.chars (leBytes 4 n)] ++ (ws2 ++ [.chars [0x00]]), key, ?_, ?_, (hc.append (Chars.one _)).append (hc2.append (Chars.one _))⟩
    · have h1 : step fresh proj (.openMap n) s = .ok (ws ++ [.chars (leBytes 4 n)], ⟨⟨.Map :: s.st.conts, s1.idx, s1.key⟩, s.made, s.store⟩) := by
        simp only [step, openMap, e, Res.ok_bind, Res.pure_eq, hh.conts, hi, Bool.false_eq_true, if_false]
      simp only [block, Res.ok_bind, h1, e2]
      simp only [step, lift, BPrint.step, ne_eq, not_true_eq_false, if_false, Res.ok_bind, Res.pure_eq, Nat.zero_add]
      rw [← hh.conts]
    · subst hn
      simp only [bytesOf_append, hw, hb2, framed, leBytes_eq_le]
      simp [bytesOf, Write.bytesIn, bytesIn, bpayload.members]
  | true =>
    simp only [hi, if_true] at hb hn ⊢
    obtain ⟨ws2, key, e2, hb2, hc2⟩ := hb ⟨⟨.Map :: s.st.conts, s1.idx, b!"_id"⟩, s.made + 1, s.store.map (· ++ [fresh s.made])⟩ ⟨_, rfl⟩ rfl (by simp)
    refine ⟨ws ++ [.chars (leBytes 4 n)] ++ [.chars [0x07], .chars (b!"_id" ++ [0x00])] ++ [.chars (fresh s.made).bson] ++ (ws2 ++ [.chars [0x00]]), key, ?_, ?_,
      (((hc.append (Chars.one _)).append (by simp [Chars])).append (Chars.one _)).append (hc2.append (Chars.one _))⟩
    · have h1 : step fresh proj (.openMap n) s = .ok (ws ++ [.chars (leBytes 4 n)] ++ [.chars [0x07], .chars (b!"_id" ++ [0x00])] ++ [.chars (fresh s.made).bson],
          ⟨⟨.Map :: s.st.conts, s1.idx, b!"_id"⟩, s.made + 1, s.store.map (· ++ [fresh s.made])⟩) := by
        simp only [step, openMap, e, Res.ok_bind, Res.pure_eq, hh.conts, hi, if_true]
        rfl
      simp only [block, Res.ok_bind, h1, e2]
      simp only [step, lift, BPrint.step, ne_eq, not_true_eq_false, if_false, Res.ok_bind, Res.pure_eq]
      rw [← hh.conts]
      simp only [Res.ok.injEq, Prod.mk.injEq, true_and, St.mk.injEq]
      refine ⟨by omega, ?_⟩
      cases s.store with
      | none => rfl
      | some l => simp [Nat.add_comm 1 k, List.range'_succ]
    · subst hn
      simp only [bytesOf_append, hw, hb2, framed, leBytes_eq_le, objectId_bson]
      simp [bytesOf, Write.bytesIn, bytesIn, bpayload.members, idMember, bpayload, BScalar.payload, objectId_bson, btype, BScalar.code, Fixed.code]


/-! ### Values, elements, members -/

variable (ids : Bool)

/-- An element with its prefix. -/
def elemBytes (pre : Byte → Option Nat → Bytes) (t : BTree) : Bytes := pre (btype t) (sizeArg t) ++ bpayload t

/-- `f` prints the document `d`. -/
def PVal (f : St → Res (List Write × St)) (d : Doc) : Prop := ∀ (s : St) (pre : Byte → Option Nat → Bytes) (s1 : BPrint.St), s.store.isSome = ids →
  Heads s.st pre s1 → Writes fresh f s (elemBytes pre (tree ids proj fresh s.st.conts s.made d)) s1 (count ids s.st.conts d)

/-- `f` prints the members `ms`. -/
def PMems (f : St → Res (List Write × St)) (ms : List (Bytes × Doc)) : Prop := ∀ (s : St) (cs : List BCont), s.store.isSome = ids → s.st.conts = .Map :: cs →
  Writes fresh f s (bpayload.members (treeMems ids proj fresh (.Map :: cs) s.made ms)) s.st (countMems ids (.Map :: cs) ms)

/-- `f` prints the elements `ts`. -/
def PElems (f : St → Res (List Write × St)) (ts : List Doc) : Prop := ∀ (s : St) (cs : List BCont) (i : Nat) (is : List Nat) (key : Bytes), s.store.isSome = ids →
  s.st = ⟨.Array :: cs, i :: is, key⟩ →
  Writes fresh f s (bpayload.elems i (treeElems ids proj fresh (.Array :: cs) s.made ts)) ⟨.Array :: cs, (i + ts.length) :: is, key⟩ (countElems ids (.Array :: cs) ts)

theorem Writes.same {f : St → Res (List Write × St)} {s : St} {b : Bytes} {s1 s2 : BPrint.St} {k : Nat} (h : Writes fresh f s b s1 k)
    (hs : ∃ key, s2 = { s1 with key := key }) : Writes fresh f s b s2 k := by
  obtain ⟨ws, key, e, hb⟩ := h
  obtain ⟨key', rfl⟩ := hs
  exact ⟨ws, key, e, hb⟩

theorem PMems.nil : PMems fresh proj ids (fun s => .ok ([], s)) [] := fun s _ _ _ => Writes.nil s

theorem PMems.append {f g : St → Res (List Write × St)} {a b : List (Bytes × Doc)} (hf : PMems fresh proj ids f a) (hg : PMems fresh proj ids g b) :
    PMems fresh proj ids (andThen f g) (a ++ b) := by
  intro s cs hi hc
  have h := (hf s cs hi hc).andThen (b := g) (y := bpayload.members (treeMems ids proj fresh (.Map :: cs) (s.made + countMems ids (.Map :: cs) a) b)) (s2 := s.st)
    (k := countMems ids (.Map :: cs) b) (fun s' hs hm hst => by
      obtain ⟨key, hs⟩ := hs
      have := hg s' cs (hst.trans hi) (by rw [hs]; exact hc)
      rw [hm] at this
      exact this.same _ ⟨s.st.key, by rw [hs]⟩)
  exact h.congr (by rw [treeMems_append, bpayload_members_append]) (countMems_append ids _ a b).symm

theorem PVal.member {f : St → Res (List Write × St)} {d : Doc} (k : Bytes) (hf : PVal fresh proj ids f d) :
    PMems fresh proj ids (andThen (step fresh proj (.addKey k)) f) [(k, d)] := by
  intro s cs hi hc
  refine Writes.member fresh proj hc fun s' hs hm hst hh => ?_
  have := hf s' (named k) s'.st (hst.trans hi) hh
  have hc' : s'.st.conts = .Map :: cs := by rw [hs]; exact hc
  rw [hc', hm] at this
  refine this.congr ?_ (by simp [countMems])
  simp [elemBytes, named, treeMems, bpayload.members]

theorem PElems.nil : PElems fresh proj ids (fun s => .ok ([], s)) [] := by
  intro s cs i is key hi hs
  exact (Writes.nil s).same _ ⟨s.st.key, by rw [hs]; rfl⟩

theorem PElems.cons {f g : St → Res (List Write × St)} {d : Doc} {ds : List Doc} (hf : PVal fresh proj ids f d) (hg : PElems fresh proj ids g ds) :
    PElems fresh proj ids (andThen f g) (d :: ds) := by
  intro s cs i is key hi hs
  have h1 := hf s (named (decimal i)) ⟨.Array :: cs, (i + 1) :: is, key⟩ hi (by rw [hs]; exact heads_array cs i is key)
  have h := h1.andThen (b := g) (y := bpayload.elems (i + 1) (treeElems ids proj fresh (.Array :: cs) (s.made + count ids s.st.conts d) ds))
    (s2 := ⟨.Array :: cs, (i + 1 + ds.length) :: is, key⟩) (k := countElems ids (.Array :: cs) ds) (fun s' hs' hm hst => by
      obtain ⟨key', hs'⟩ := hs'
      have := hg s' cs (i + 1) is key' (hst.trans hi) hs'
      rw [hm] at this
      exact this.same _ ⟨key, rfl⟩)
  have hc : s.st.conts = .Array :: cs := by rw [hs]
  rw [hc] at h
  refine (h.congr ?_ ?_).same _ ⟨key, by simp; omega⟩
  · simp [elemBytes, named, treeElems, bpayload.elems]
  · simp [countElems]

theorem PVal.arr {env : Env} {mk : Bytes} {info : BPrint.SizeInfo} {p : Bool} {ty : Ty} {v : Val} {body : St → Res (List Write × St)} {ds : List Doc}
    (hs : ∀ lv, ∃ a, psize env mk info ids proj lv p ty v = .ok a ∧ ∀ n, (bpayload (tree ids proj fresh lv n (.arr ds))).length = a) (hb : PElems fresh proj ids body ds) :
    PVal fresh proj ids (fun s => block fresh proj (psize env mk info s.store.isSome proj s.st.conts p ty v) .openArray .closeArray body s) (.arr ds) := by
  intro s pre s1 hi hh
  obtain ⟨a, e, hl⟩ := hs s.st.conts
  have hw : Writes fresh (block fresh proj (.ok a) .openArray .closeArray body) s
      (pre 0x04 none ++ framed (bpayload.elems 0 (treeElems ids proj fresh (.Array :: s.st.conts) s.made ds))) s1 (countElems ids (.Array :: s.st.conts) ds) := by
    refine array_writes fresh proj (i := 0 + ds.length) hh ?_ ?_
    · rw [← hl s.made, tree, bpayload, framed_len]
    · intro s' hs' hm hst
      have := hb s' s.st.conts 0 s1.idx s1.key (hst.trans hi) hs'
      rw [hm] at this
      exact this
  unfold Writes at hw ⊢
  dsimp only
  rw [hi, e]
  simpa [elemBytes, tree, btype, sizeArg, bpayload, count] using hw

theorem PVal.obj {env : Env} {mk : Bytes} {info : BPrint.SizeInfo} {p : Bool} {ty : Ty} {v : Val} {body : St → Res (List Write × St)} {ms : List (Bytes × Doc)}
    (hs : ∀ lv, ∃ a, psize env mk info ids proj lv p ty v = .ok a ∧ ∀ n, (bpayload (tree ids proj fresh lv n (.obj ms))).length = a) (hb : PMems fresh proj ids body ms) :
    PVal fresh proj ids (fun s => block fresh proj (psize env mk info s.store.isSome proj s.st.conts p ty v) .openMap .closeMap body s) (.obj ms) := by
  intro s pre s1 hi hh
  obtain ⟨a, e, hl⟩ := hs s.st.conts
  have hw : Writes fresh (block fresh proj (.ok a) .openMap .closeMap body) s
      (pre 0x03 none ++ framed (bpayload.members (if needId s.store.isSome s.st.conts then [idMember (fresh s.made)] else []) ++
        bpayload.members (treeMems ids proj fresh (.Map :: s.st.conts) (s.made + if needId ids s.st.conts then 1 else 0) ms))) s1
      ((if needId s.store.isSome s.st.conts then 1 else 0) + countMems ids (.Map :: s.st.conts) ms) := by
    refine map_writes fresh proj hh ?_ ?_
    · rw [← hl s.made, tree, bpayload, framed_len, bpayload_members_append, hi]
    · intro s' hs' hm hst
      obtain ⟨key, hs'⟩ := hs'
      have := hb s' s.st.conts (hst.trans hi) (by rw [hs'])
      rw [hm, hi] at this
      exact this
  unfold Writes at hw ⊢
  dsimp only
  rw [hi, e]
  rw [hi, ← bpayload_members_append] at hw
  simpa [elemBytes, tree, btype, sizeArg, bpayload, count] using hw

theorem PVal.atom (a : Atom) (h : Plain proj a) : PVal fresh proj ids (step fresh proj (atomCmd a)) (.scalar a) := by
  intro s pre s1 _ hh
  exact atom_writes fresh proj a h hh

/-! ### The serializer -/

variable (env : Env) (mk : Bytes) (info : BPrint.SizeInfo)

theorem allMembers_append {P : Atom → Prop} {a b : List (Bytes × Doc)} : AllScalars.members P (a ++ b) ↔ AllScalars.members P a ∧ AllScalars.members P b := by
  induction a with
  | nil => simp [AllScalars.members]
  | cons m a ih => obtain ⟨k, t⟩ := m; simp [AllScalars.members, ih, and_assoc]

theorem className_mems (c : Nat) (name : Bytes) (h : Plain proj (.str name)) :
    PMems fresh proj ids (className env mk fresh proj c name) [(polyMarker env mk c, .scalar (.str name))] :=
  (PVal.atom fresh proj ids (.str name) h).member fresh proj ids (polyMarker env mk c)

mutual
theorem ser_doc : ∀ (v : Val) (p : Bool) (ty : Ty) (d : Doc), docOf env mk ty v = .ok d → SizeKnown env info p ty v → AllScalars (Plain proj) d →
    PVal fresh proj ids (ser env mk info fresh proj ty v) d
  | .int i, p, ty, d, h, hk, ha => by
    cases ty <;> simp [docOf] at h
    subst h; exact PVal.atom fresh proj ids (.int _ i) ha
  | .flt x, p, ty, d, h, hk, ha => by
    cases ty <;> simp [docOf] at h
    subst h; exact PVal.atom fresh proj ids (.flt _ x) ha
  | .bool b, p, ty, d, h, hk, ha => by
    cases ty <;> simp [docOf] at h
    subst h; exact PVal.atom fresh proj ids (.bool b) ha
  | .str s, p, ty, d, h, hk, ha => by
    cases ty <;> simp [docOf] at h
    subst h; exact PVal.atom fresh proj ids (.str s) ha
  | .none, p, ty, d, h, hk, ha => by cases ty <;> simp [docOf, throwStd] at h
  | .null, p, ty, d, h, hk, ha => by
    cases ty <;> simp [docOf] at h <;> subst h <;> exact PVal.atom fresh proj ids .null ha
  | .some v, p, ty, d, h, hk, ha => by
    cases ty <;> simp [docOf] at h
    rw [ser]; exact ser_doc v p _ d h hk ha
  | .ptr v, p, ty, d, h, hk, ha => by
    cases ty <;> simp [docOf] at h
    rw [ser]; exact ser_doc v true _ d h hk ha
  | .list vs, p, ty, d, h, hk, ha => by
    have hz := fun lv => psize_doc ids proj fresh env mk info (.list vs) lv false ty d h (by cases ty <;> exact hk)
    cases ty with
    | seq k t | arr m t =>
      rw [docOf] at h
      obtain ⟨ds, h1, h2⟩ := Res.bind_ok h
      obtain rfl := Res.ok_inj h2
      rw [ser]
      exact PVal.arr fresh proj ids hz (serList_doc vs t ds h1 hk ha)
    | named i =>
      rw [docOf] at h
      rw [SizeKnown] at hk
      rw [ser]
      cases hd : env.defs i <;> simp only [hd] at h hk ⊢ <;> try (cases h; done)
      rename_i ts
      obtain ⟨ds, h1, h2⟩ := Res.bind_ok h
      obtain rfl := Res.ok_inj h2
      exact PVal.arr fresh proj ids hz (serTuple_doc vs ts ds h1 hk ha)
    | _ => simp [docOf] at h
  | .dict kvs, p, ty, d, h, hk, ha => by
    have hz := fun lv => psize_doc ids proj fresh env mk info (.dict kvs) lv false ty d h (by cases ty <;> exact hk)
    cases ty with
    | smap t | mmap t | umap t =>
      rw [docOf] at h
      obtain ⟨ds, h1, h2⟩ := Res.bind_ok h
      obtain rfl := Res.ok_inj h2
      rw [ser]
      exact PVal.obj fresh proj ids hz (serDict_doc kvs t ds h1 hk ha)
    | _ => simp [docOf] at h
  | .enum e, p, ty, d, h, hk, ha => by
    cases ty with
    | named i =>
      rw [docOf] at h
      rw [ser]
      cases hd : env.defs i <;> simp only [hd] at h ⊢ <;> try (cases h; done)
      rename_i table
      simp only [enumName]
      cases hl : table.lookup e with
      | none => rw [hl] at h; cases h
      | some s => rw [hl] at h; obtain rfl := Res.ok_inj h; exact PVal.atom fresh proj ids (.str s) ha
    | _ => simp [docOf] at h
  | .obj ps fs, p, ty, d, h, hk, ha => by
    cases ty with
    | named i =>
      have hk' : SizeKnown env info false (.named i) (.obj ps fs) := by
        rw [SizeKnown] at hk ⊢
        cases hd : env.defs i with
        | cls c =>
          obtain ⟨⟨dps, ms, f⟩, name, field⟩ := c
          simp only [hd] at hk ⊢
          refine ⟨?_, hk.2⟩
          have := hk.1
          split
          · rename_i hp; rw [if_pos hp] at this; exact this
          · rename_i hp; rw [if_neg hp] at this
            exact this.imp id fun h => ⟨trivial, h.2⟩
        | _ => simp only
      have hz := fun lv => psize_doc ids proj fresh env mk info (.obj ps fs) lv false _ d h hk'
      rw [docOf] at h
      rw [SizeKnown] at hk
      rw [ser]
      cases hd : env.defs i with
      | cls c =>
        obtain ⟨⟨dps, ms, f⟩, name, field⟩ := c
        simp only [hd] at h hk ⊢
        obtain ⟨own, h1, h⟩ := Res.bind_ok h
        obtain ⟨up, h2, h⟩ := Res.bind_ok h
        obtain rfl := Res.ok_inj h
        obtain ⟨hk1, hk2, hk3⟩ := hk
        have ⟨ha1, ha2⟩ := allMembers_append.1 ha
        have ⟨ha2, ha3⟩ := allMembers_append.1 ha2
        refine PVal.obj fresh proj ids hz ?_
        refine PMems.append fresh proj ids ?_ (PMems.append fresh proj ids (serOwn_doc fs f (.obj ps fs) ms own h1 hk2 ha2) (serParents_doc ps dps up h2 hk3 ha3))
        cases field with
        | none => exact PMems.nil fresh proj ids
        | some fn => exact className_mems fresh proj ids env mk i name ha1.1
      | _ => simp [hd] at h
    | _ => simp [docOf] at h
  | .dyn c v, p, ty, d, h, hk, ha => by
    cases ty with
    | pptr b =>
      cases v with
      | obj ps fs =>
        rw [docOf] at h
        rw [SizeKnown] at hk
        rw [ser]
        cases hd : env.defs c with
        | cls cd =>
          obtain ⟨⟨dps, ms, f⟩, name, field⟩ := cd
          simp only [hd] at h hk ⊢
          obtain ⟨own, h1, h⟩ := Res.bind_ok h
          obtain ⟨up, h2, h⟩ := Res.bind_ok h
          obtain rfl := Res.ok_inj h
          obtain ⟨hk1, hk2, hk3, hk4⟩ := hk
          have ⟨ha1, ha2⟩ := (allMembers_append (a := [(polyMarker env mk c, .scalar (.str name))])).1 ha
          have ⟨ha2, ha3⟩ := allMembers_append.1 ha2
          refine PVal.obj fresh proj ids
            (fun lv => psize_poly ids proj fresh env mk info lv hd hk2 (by rw [hk1]; rfl) h1 hk3 h2 hk4) ?_
          exact PMems.append fresh proj ids (className_mems fresh proj ids env mk c name ha1.1)
            (PMems.append fresh proj ids (serOwn_doc fs f (.obj ps fs) ms own h1 hk3 ha2) (serParents_doc ps dps up h2 hk4 ha3))
        | _ => simp [hd] at h
      | _ => simp [docOf] at h
    | _ => simp [docOf] at h
  | .alt c v, p, ty, d, h, hk, ha => by
    cases ty with
    | named i =>
      cases v with
      | obj ps fs =>
        rw [docOf] at h
        rw [SizeKnown] at hk
        rw [ser]
        cases hd : env.defs c with
        | cls cd =>
          obtain ⟨⟨dps, ms, f⟩, name, field⟩ := cd
          simp only [hd] at h hk ⊢
          obtain ⟨own, h1, h⟩ := Res.bind_ok h
          obtain ⟨up, h2, h⟩ := Res.bind_ok h
          obtain rfl := Res.ok_inj h
          obtain ⟨hk1, hk2, hk3, hk4, hk5⟩ := hk
          have ⟨ha1, ha2⟩ := (allMembers_append (a := [(polyMarker env mk c, .scalar (.str name))])).1 ha
          have ⟨ha2, ha3⟩ := allMembers_append.1 ha2
          refine PVal.obj fresh proj ids
            (fun lv => psize_poly ids proj fresh env mk info lv hd hk2 (by rw [hk1]; exact hk3) h1 hk4 h2 hk5) ?_
          exact PMems.append fresh proj ids (className_mems fresh proj ids env mk c name ha1.1)
            (PMems.append fresh proj ids (serOwn_doc fs f (.obj ps fs) ms own h1 hk4 ha2) (serParents_doc ps dps up h2 hk5 ha3))
        | _ => simp [hd] at h
      | _ => simp [docOf] at h
    | _ => simp [docOf] at h
termination_by structural v => v
theorem serList_doc : ∀ (vs : List Val) (t : Ty) (ds : List Doc), docList env mk t vs = .ok ds → SizeKnownList env info t vs → AllScalars.elems (Plain proj) ds →
    PElems fresh proj ids (serList env mk info fresh proj t vs) ds
  | [], t, ds, h, hk, ha => by
    obtain rfl := Res.ok_inj h
    exact PElems.nil fresh proj ids
  | v :: vs, t, ds, h, hk, ha => by
    rw [docList] at h
    obtain ⟨a, h1, h⟩ := Res.bind_ok h
    obtain ⟨b, h2, h⟩ := Res.bind_ok h
    obtain rfl := Res.ok_inj h
    rw [serList]
    exact PElems.cons fresh proj ids (ser_doc v false t a h1 hk.1 ha.1) (serList_doc vs t b h2 hk.2 ha.2)
termination_by structural vs => vs
theorem serTuple_doc : ∀ (vs : List Val) (ts : List Ty) (ds : List Doc), docTuple env mk ts vs = .ok ds → SizeKnownTuple env info ts vs →
    AllScalars.elems (Plain proj) ds → PElems fresh proj ids (serTuple env mk info fresh proj ts vs) ds
  | [], [], ds, h, hk, ha => by
    obtain rfl := Res.ok_inj h
    exact PElems.nil fresh proj ids
  | [], _ :: _, ds, h, hk, ha => by cases h
  | _ :: _, [], ds, h, hk, ha => by cases h
  | v :: vs, t :: ts, ds, h, hk, ha => by
    rw [docTuple] at h
    obtain ⟨a, h1, h⟩ := Res.bind_ok h
    obtain ⟨b, h2, h⟩ := Res.bind_ok h
    obtain rfl := Res.ok_inj h
    rw [serTuple]
    exact PElems.cons fresh proj ids (ser_doc v false t a h1 hk.1 ha.1) (serTuple_doc vs ts b h2 hk.2 ha.2)
termination_by structural vs => vs
theorem serDict_doc : ∀ (kvs : List (Bytes × Val)) (t : Ty) (ds : List (Bytes × Doc)), docDict env mk t kvs = .ok ds → SizeKnownDict env info t kvs →
    AllScalars.members (Plain proj) ds → PMems fresh proj ids (serDict env mk info fresh proj t kvs) ds
  | [], t, ds, h, hk, ha => by
    obtain rfl := Res.ok_inj h
    exact PMems.nil fresh proj ids
  | (k, v) :: kvs, t, ds, h, hk, ha => by
    rw [docDict] at h
    obtain ⟨a, h1, h⟩ := Res.bind_ok h
    obtain ⟨b, h2, h⟩ := Res.bind_ok h
    obtain rfl := Res.ok_inj h
    rw [serDict]
    exact PMems.append fresh proj ids ((ser_doc v false t a h1 hk.1 ha.1).member fresh proj ids k) (serDict_doc kvs t b h2 hk.2 ha.2)
termination_by structural vs => vs
theorem serOwn_doc : ∀ (vs : List Val) (f : Option (Val → Bytes → Bool)) (self : Val) (ms : List Member) (ds : List (Bytes × Doc)),
    docOwn env mk f self ms vs = .ok ds → SizeKnownOwn env info ms vs → AllScalars.members (Plain proj) ds →
    PMems fresh proj ids (serOwn env mk info fresh proj f self ms vs) ds
  | [], f, self, [], ds, h, hk, ha => by
    obtain rfl := Res.ok_inj h
    exact PMems.nil fresh proj ids
  | [], f, self, _ :: _, ds, h, hk, ha => by cases h
  | _ :: _, f, self, [], ds, h, hk, ha => by cases h
  | v :: vs, f, self, m :: ms, ds, h, hk, ha => by
    rw [docOwn] at h
    rw [serOwn]
    by_cases hs : shown f self m v
    · rw [if_pos hs] at h
      rw [if_pos ((keep_iff f self m v).2 hs)]
      obtain ⟨a, h1, h⟩ := Res.bind_ok h
      obtain ⟨b, h2, h⟩ := Res.bind_ok h
      obtain rfl := Res.ok_inj h
      exact PMems.append fresh proj ids ((ser_doc v false m.ty a h1 hk.1 ha.1).member fresh proj ids m.out) (serOwn_doc vs f self ms b h2 hk.2 ha.2)
    · rw [if_neg hs] at h
      rw [if_neg (fun h => hs ((keep_iff f self m v).1 h))]
      exact serOwn_doc vs f self ms ds h hk.2 ha
termination_by structural vs => vs
theorem serParents_doc : ∀ (vs : List Val) (ds : List StructDef) (dd : List (Bytes × Doc)), docParents env mk ds vs = .ok dd →
    SizeKnownParents env info ds vs → AllScalars.members (Plain proj) dd → PMems fresh proj ids (serParents env mk info fresh proj ds vs) dd
  | [], [], dd, h, hk, ha => by
    obtain rfl := Res.ok_inj h
    exact PMems.nil fresh proj ids
  | [], .mk _ _ _ :: _, dd, h, hk, ha => by cases h
  | _ :: _, [], dd, h, hk, ha => by cases h
  | .obj ps fs :: vs, .mk dps ms f :: ds, dd, h, hk, ha => by
    rw [docParents] at h
    obtain ⟨own, h1, h⟩ := Res.bind_ok h
    obtain ⟨up, h2, h⟩ := Res.bind_ok h
    obtain ⟨b, h3, h⟩ := Res.bind_ok h
    obtain rfl := Res.ok_inj h
    obtain ⟨hk1, hk2, hk3⟩ := hk
    have ⟨ha1, ha3⟩ := allMembers_append.1 ha
    have ⟨ha1, ha2⟩ := allMembers_append.1 ha1
    rw [serParents]
    exact PMems.append fresh proj ids (PMems.append fresh proj ids (serOwn_doc fs f (.obj ps fs) ms own h1 hk1 ha1) (serParents_doc ps dps up h2 hk2 ha2))
      (serParents_doc vs ds b h3 hk3 ha3)
  | .int _ :: _, .mk _ _ _ :: _, _, h, _, _ => by cases h
  | .flt _ :: _, .mk _ _ _ :: _, _, h, _, _ => by cases h
  | .bool _ :: _, .mk _ _ _ :: _, _, h, _, _ => by cases h
  | .str _ :: _, .mk _ _ _ :: _, _, h, _, _ => by cases h
  | .enum _ :: _, .mk _ _ _ :: _, _, h, _, _ => by cases h
  | .list _ :: _, .mk _ _ _ :: _, _, h, _, _ => by cases h
  | .dict _ :: _, .mk _ _ _ :: _, _, h, _, _ => by cases h
  | .none :: _, .mk _ _ _ :: _, _, h, _, _ => by cases h
  | .some _ :: _, .mk _ _ _ :: _, _, h, _, _ => by cases h
  | .null :: _, .mk _ _ _ :: _, _, h, _, _ => by cases h
  | .ptr _ :: _, .mk _ _ _ :: _, _, h, _, _ => by cases h
  | .dyn _ _ :: _, .mk _ _ _ :: _, _, h, _, _ => by cases h
  | .alt _ _ :: _, .mk _ _ _ :: _, _, h, _, _ => by cases h
termination_by structural vs => vs
end

/-! ### Which tree it is -/

/-- No array in a document can be reached from here. -/
def Off (lv : List BCont) : Prop := ¬ lv <:+ [.Array, .Map]

theorem Off.cons {lv : List BCont} (h : Off lv) (c : BCont) : Off (c :: lv) := fun h1 => h (List.IsSuffix.trans (List.suffix_cons c lv) h1)

theorem Off.needId {ids : Bool} {lv : List BCont} (h : ids = false ∨ Off lv) : needId ids lv = false := by
  rcases h with h | h
  · subst h; rfl
  · have : lv ≠ [.Array, .Map] := fun e => h (e ▸ List.suffix_refl _)
    simp [BIds.needId, this]

theorem Off.next {ids : Bool} {lv : List BCont} (h : ids = false ∨ Off lv) (c : BCont) : ids = false ∨ Off (c :: lv) := h.imp id (·.cons c)

mutual
theorem count_off : ∀ (d : Doc) (lv : List BCont), (ids = false ∨ Off lv) → count ids lv d = 0
  | .scalar _, lv, h => rfl
  | .arr ts, lv, h => by rw [count]; exact countElems_off ts _ (Off.next h _)
  | .obj ms, lv, h => by rw [count, Off.needId h, countMems_off ms _ (Off.next h _)]; rfl
theorem countElems_off : ∀ (ts : List Doc) (lv : List BCont), (ids = false ∨ Off lv) → countElems ids lv ts = 0
  | [], _, _ => rfl
  | t :: ts, lv, h => by rw [countElems, count_off t lv h, countElems_off ts lv h]
theorem countMems_off : ∀ (ms : List (Bytes × Doc)) (lv : List BCont), (ids = false ∨ Off lv) → countMems ids lv ms = 0
  | [], _, _ => rfl
  | (k, t) :: ms, lv, h => by rw [countMems, count_off t lv h, countMems_off ms lv h]
end

mutual
theorem tree_off : ∀ (d : Doc) (lv : List BCont) (n : Nat), (ids = false ∨ Off lv) → tree ids false fresh lv n d = btree d
  | .scalar _, lv, n, h => rfl
  | .arr ts, lv, n, h => by rw [tree, btree, treeElems_off ts _ _ (Off.next h _)]
  | .obj ms, lv, n, h => by rw [tree, btree, Off.needId h, treeMems_off ms _ _ (Off.next h _)]; rfl
theorem treeElems_off : ∀ (ts : List Doc) (lv : List BCont) (n : Nat), (ids = false ∨ Off lv) → treeElems ids false fresh lv n ts = btree.elems ts
  | [], _, _, _ => rfl
  | t :: ts, lv, n, h => by rw [treeElems, btree.elems, tree_off t lv n h, treeElems_off ts lv _ h]
theorem treeMems_off : ∀ (ms : List (Bytes × Doc)) (lv : List BCont) (n : Nat), (ids = false ∨ Off lv) → treeMems ids false fresh lv n ms = btree.members ms
  | [], _, _, _ => rfl
  | (k, t) :: ms, lv, n, h => by rw [treeMems, btree.members, tree_off t lv n h, treeMems_off ms lv _ h]
end

mutual
theorem tree_ones : ∀ (d : Doc) (lv : List BCont) (n : Nat), tree false true fresh lv n d = ones d
  | .scalar _, lv, n => rfl
  | .arr ts, lv, n => by rw [tree, ones, treeElems_ones ts]
  | .obj ms, lv, n => by rw [tree, ones, Off.needId (.inl rfl), treeMems_ones ms]; rfl
theorem treeElems_ones : ∀ (ts : List Doc) (lv : List BCont) (n : Nat), treeElems false true fresh lv n ts = ones.elems ts
  | [], _, _ => rfl
  | t :: ts, lv, n => by rw [treeElems, ones.elems, tree_ones t lv n, treeElems_ones ts lv]
theorem treeMems_ones : ∀ (ms : List (Bytes × Doc)) (lv : List BCont) (n : Nat), treeMems false true fresh lv n ms = ones.members ms
  | [], _, _ => rfl
  | (k, t) :: ms, lv, n => by rw [treeMems, ones.members, tree_ones t lv n, treeMems_ones ms lv]
end

theorem idElems_tree : ∀ (ts : List Doc) (n : Nat), treeElems true false fresh [.Array, .Map] n ts = idElems fresh n (btree.elems ts) ∧
    countElems true [.Array, .Map] ts = countDocs (btree.elems ts)
  | [], n => ⟨rfl, rfl⟩
  | .scalar a :: ts, n => by
    obtain ⟨h1, h2⟩ := idElems_tree ts n
    exact ⟨by simp [treeElems, tree, count, btree.elems, btree, idElems, h1, scalar], by simp [countElems, count, btree.elems, btree, countDocs, h2]⟩
  | .arr es :: ts, n => by
    obtain ⟨h1, h2⟩ := idElems_tree ts n
    have ho : (true = false ∨ Off [.Array, .Array, .Map]) := .inr (by simp [Off, List.suffix_cons_iff])
    refine ⟨?_, ?_⟩
    · rw [treeElems, tree, treeElems_off fresh true es _ _ ho, count, countElems_off true es _ ho]
      simp [btree.elems, btree, idElems, h1]
    · rw [countElems, count, countElems_off true es _ ho]; simp [btree.elems, btree, countDocs, h2]
  | .obj ms :: ts, n => by
    obtain ⟨h1, h2⟩ := idElems_tree ts (n + 1)
    have ho : (true = false ∨ Off [.Map, .Array, .Map]) := .inr (by simp [Off, List.suffix_cons_iff])
    have hn : needId true [.Array, .Map] = true := rfl
    refine ⟨?_, ?_⟩
    · rw [treeElems, tree, treeMems_off fresh true ms _ _ ho, count, countMems_off true ms _ ho, hn]
      simp [btree.elems, btree, idElems, h1]
    · rw [countElems, count, countMems_off true ms _ ho, hn]; simp [btree.elems, btree, countDocs, h2]; omega

theorem idMembers_tree : ∀ (ms : List (Bytes × Doc)) (n : Nat), treeMems true false fresh [.Map] n ms = idMembers fresh n (btree.members ms) ∧
    countMems true [.Map] ms = countMembers (btree.members ms)
  | [], n => ⟨rfl, rfl⟩
  | (k, .scalar a) :: ms, n => by
    obtain ⟨h1, h2⟩ := idMembers_tree ms n
    exact ⟨by simp [treeMems, tree, count, btree.members, btree, idMembers, h1, scalar], by simp [countMems, count, btree.members, btree, countMembers, h2]⟩
  | (k, .arr es) :: ms, n => by
    obtain ⟨h3, h4⟩ := idElems_tree fresh es n
    obtain ⟨h1, h2⟩ := idMembers_tree ms (n + countDocs (btree.elems es))
    refine ⟨?_, ?_⟩
    · rw [treeMems, tree, count, h3, h4, h1]; rfl
    · rw [countMems, count, h4, h2]; rfl
  | (k, .obj es) :: ms, n => by
    obtain ⟨h1, h2⟩ := idMembers_tree ms n
    have ho : (true = false ∨ Off [.Map, .Map]) := .inr (by simp [Off, List.suffix_cons_iff])
    have hn : needId true [.Map] = false := rfl
    refine ⟨?_, ?_⟩
    · rw [treeMems, tree, treeMems_off fresh true es _ _ ho, count, countMems_off true es _ ho, hn]
      simp [btree.members, btree, idMembers, h1]
    · rw [countMems, count, countMems_off true es _ ho, hn]; simp [btree.members, btree, countMembers, h2]

theorem idElems_shift (m : Nat) : ∀ (ts : List BTree) (n : Nat), idElems fresh (m + n) ts = idElems (fun i => fresh (m + i)) n ts
  | [], n => rfl
  | .obj ms :: ts, n => by rw [idElems, idElems, Nat.add_assoc, idElems_shift m ts]
  | .scalar _ :: ts, n => by simp only [idElems]; rw [idElems_shift m ts]
  | .arr _ :: ts, n => by simp only [idElems]; rw [idElems_shift m ts]

theorem idMembers_shift (m : Nat) : ∀ (ms : List (Bytes × BTree)) (n : Nat), idMembers fresh (m + n) ms = idMembers (fun i => fresh (m + i)) n ms
  | [], n => rfl
  | (k, .arr ts) :: ms, n => by rw [idMembers, idMembers, Nat.add_assoc, idMembers_shift m ms, idElems_shift fresh m ts]
  | (k, .scalar _) :: ms, n => by simp only [idMembers]; rw [idMembers_shift m ms]
  | (k, .obj _) :: ms, n => by simp only [idMembers]; rw [idMembers_shift m ms]

theorem tree_withIds (d : Doc) (m : Nat) : tree true false fresh [] m d = withIds (fun i => fresh (m + i)) (btree d) ∧ count true [] d = idsNeeded (btree d) := by
  cases d with
  | scalar a => exact ⟨rfl, rfl⟩
  | arr ts =>
    have ho : (true = false ∨ Off [.Array]) := .inr (by simp [Off, List.suffix_cons_iff])
    exact ⟨by rw [tree, treeElems_off fresh true ts _ _ ho]; rfl, by rw [count, countElems_off true ts _ ho]; rfl⟩
  | obj ms =>
    obtain ⟨h1, h2⟩ := idMembers_tree fresh ms m
    have hn : needId true [] = false := rfl
    refine ⟨?_, ?_⟩
    · rw [tree, hn]
      simp only [Bool.false_eq_true, if_false, List.nil_append, Nat.add_zero, btree, withIds, h1]
      rw [← idMembers_shift fresh m (btree.members ms) 0, Nat.add_zero]
    · rw [count, hn, h2]; simp [btree, idsNeeded]

end
end BIds
end Thors
