import Verif.Proofs.Mongo
import Verif.Props.JsonString
import Verif.Props.JsonInt
/-
C43, C48-C54: the Mongo types.
-/
namespace Thors.Props
open Thors Spec StrIn

/-! ### C43: ObjectID -/

/-- The fields of the object fit the 4, 5 and 3 bytes they are stored in. -/
def Fits453 (o : ObjectID) : Prop :=
  (-(2 ^ 31) ≤ o.timestamp ∧ o.timestamp < 2 ^ 31) ∧ (0 ≤ o.random ∧ o.random < 2 ^ 40) ∧ (0 ≤ o.counter ∧ o.counter < 2 ^ 24)

instance (o : ObjectID) : Decidable (Fits453 o) := by unfold Fits453; infer_instance

/-- The members have values of their types. -/
def Typed (o : ObjectID) : Prop := InRange i32 o.timestamp ∧ InRange i64 o.random ∧ InRange i32 o.counter

theorem text_eq (o : ObjectID) (h : Fits453 o) :
    o.text = hexFixed 8 (o.timestamp % 2 ^ 32).toNat ++ hexFixed 10 o.random.toNat ++ hexFixed 6 o.counter.toNat := by
  obtain ⟨h1, h2, h3⟩ := h
  have e2 : o.random % 2 ^ 64 = o.random := Int.emod_eq_of_lt (by omega) (by omega)
  have e3 : o.counter % 2 ^ 32 = o.counter := Int.emod_eq_of_lt (by omega) (by omega)
  rw [ObjectID.text, setwHex_fixed 7 32 _ (by omega), setwHex_fixed 9 64 _ (by omega), setwHex_fixed 5 32 _ (by omega), e2, e3]

theorem castTo_i32 (v : Int) (h1 : -(2 ^ 31) ≤ v) (h2 : v < 2 ^ 31) : castTo i32 (v % 2 ^ 32) = v := by
  rw [castTo_mod i32 _ v (by simp [i32])]
  exact castTo_fits (by decide) ⟨by simp [i32, IntKind.lo]; omega, by simp [i32, IntKind.hi]; omega⟩

/-- C43, text. For every ObjectID whose fields fit: its text has 24 lower case hexadecimal digits, and reading it into any ObjectID, in front of any
other text, gives an equal ObjectID and leaves the other text. -/
theorem C43_text (o old : ObjectID) (h : Fits453 o) (rest : Bytes) :
    o.text.length = 24 ∧ (∀ c ∈ o.text, c ∈ hexAlphabet) ∧
    ∃ o', old.readText (o.text ++ rest) = .ok (o', rest) ∧ o'.eq o = true := by
  have ht := text_eq o h
  have hd : ∀ w n, n < 16 ^ w → ∀ c ∈ hexFixed w n, c ∈ hexAlphabet := by
    intro w
    induction w with
    | zero => intro n _ c hc; simp [hexFixed] at hc
    | succ w ih =>
      intro n hn c hc
      have hp : 0 < 16 ^ w := Nat.pow_pos (by decide)
      rw [hexFixed, List.mem_cons] at hc
      rcases hc with rfl | hc
      · have : n / 16 ^ w < 16 := by rw [Nat.div_lt_iff_lt_mul hp, Nat.mul_comm, ← Nat.pow_succ]; exact hn
        revert this
        generalize n / 16 ^ w = d
        revert d
        decide
      · exact ih _ (Nat.mod_lt _ hp) c hc
  obtain ⟨h1, h2, h3⟩ := h
  refine ⟨by rw [ht]; simp [hexFixed_length], ?_, ?_⟩
  · intro c hc
    rw [ht, List.mem_append, List.mem_append] at hc
    rcases hc with (hc | hc) | hc
    · exact hd _ _ (by omega) c hc
    · exact hd _ _ (by omega) c hc
    · exact hd _ _ (by omega) c hc
  · rw [ht, ObjectID.readText]
    simp only [List.append_assoc]
    rw [readNumberMaxLen_fixed 8 (by decide) _ _ (by omega)]
    simp only [Res.ok_bind]
    rw [readNumberMaxLen_fixed 10 (by decide) _ _ (by omega)]
    simp only [Res.ok_bind]
    rw [readNumberMaxLen_fixed 6 (by decide) _ _ (by omega)]
    simp only [Res.ok_bind, Res.pure_eq]
    refine ⟨_, rfl, ?_⟩
    simp only [ObjectID.eq, decide_eq_true_eq]
    refine ⟨?_, ?_, ?_⟩
    · rw [Int.toNat_of_nonneg (by omega)]; exact castTo_i32 _ h1.1 h1.2
    · rw [Int.toNat_of_nonneg (by omega)]
      exact castTo_fits (by decide) ⟨by simp [i64, IntKind.lo]; omega, by simp [i64, IntKind.hi]; omega⟩
    · rw [Int.toNat_of_nonneg (by omega)]
      exact castTo_fits (by decide) ⟨by simp [i32, IntKind.lo]; omega, by simp [i32, IntKind.hi]; omega⟩

/-- The constructor from text restores the object. -/
theorem C43_constructor (o : ObjectID) (h : Fits453 o) : ∃ o', ObjectID.ofText o.text = .ok o' ∧ o'.eq o = true := by
  obtain ⟨-, -, o', h1, h2⟩ := C43_text o ⟨0, 0, 0, []⟩ h []
  rw [List.append_nil] at h1
  exact ⟨o', by rw [ObjectID.ofText, h1]; rfl, h2⟩

/-- C43, BSON. The element payload of an ObjectID has twelve bytes; reading it anywhere in an input gives an equal ObjectID and moves the
position by twelve. -/
theorem C43_binary (o old : ObjectID) (h : Fits453 o) (pre post : Bytes) (good : Bool) :
    o.bson.length = 12 ∧
    ∃ o', old.readBson ⟨pre ++ o.bson ++ post, pre.length, good⟩ = .ok (o', ⟨pre ++ o.bson ++ post, pre.length + 12, true⟩) ∧ o'.eq o = true := by
  obtain ⟨h1, h2, h3⟩ := h
  have l1 := beBytes_length 4 4 (by decide) o.timestamp
  have l2 := beBytes_length 8 5 (by decide) o.random
  have l3 := beBytes_length 4 3 (by decide) o.counter
  refine ⟨by simp [ObjectID.bson, l1, l2, l3], ?_⟩
  generalize hd : pre ++ o.bson ++ post = data
  have e1 := readBE_at 4 4 (by decide) o.timestamp (by simp; omega) pre (beBytes 8 5 o.random ++ beBytes 4 3 o.counter ++ post) good
  have e2 := readBE_at 8 5 (by decide) o.random (by simp; omega) (pre ++ beBytes 4 4 o.timestamp) (beBytes 4 3 o.counter ++ post) true
  have e3 := readBE_at 4 3 (by decide) o.counter (by simp; omega) (pre ++ beBytes 4 4 o.timestamp ++ beBytes 8 5 o.random) post true
  rw [ObjectID.bson] at hd
  simp only [List.append_assoc] at hd e1 e2 e3
  rw [hd] at e1 e2 e3
  simp only [List.length_append, l1, l2] at e2 e3
  rw [ObjectID.readBson, e1]
  simp only [Res.ok_bind]
  rw [e2]
  simp only [Res.ok_bind]
  rw [show pre.length + 4 + 5 = pre.length + (4 + 5) by omega, e3]
  exact ⟨_, rfl, by simp [ObjectID.eq]⟩

/-- The ranges cannot be widened: an ObjectID with members of their types is restored from BSON only if the fields fit their bytes. -/
theorem C43_exactly_these (o old o' : ObjectID) (ht : Typed o) (s' : StrIn)
    (hr : old.readBson (StrIn.ofBytes o.bson) = .ok (o', s')) (he : o'.eq o = true) : Fits453 o := by
  have l1 := beBytes_length 4 4 (by decide) o.timestamp
  have l2 := beBytes_length 8 5 (by decide) o.random
  have l3 := beBytes_length 4 3 (by decide) o.counter
  -- what the reads give, whatever the values
  have gen : ∀ (width size : Nat) (hs : size < width) (pre bs post : Bytes) (hb : bs.length = size),
      ∃ s, readBE width size ⟨pre ++ bs ++ post, pre.length, true⟩ = .ok ((leNat bs.reverse : Int), s) ∧ s = ⟨pre ++ bs ++ post, pre.length + size, true⟩ := by
    intro width size hs pre bs post hb
    have := read_at pre bs post true
    rw [hb] at this
    rw [readBE, this]
    simp only [Res.ok_bind, Res.pure_eq, hb, Nat.sub_self, List.replicate_zero, List.reverse_append, List.reverse_replicate, List.nil_append]
    rw [leInt_zeros _ _ (by omega)]
    exact ⟨_, rfl, rfl⟩
  have b1 : ∃ t, readBE 4 4 (StrIn.ofBytes o.bson) = .ok (t, ⟨o.bson, 4, true⟩) := by
    have := read_at [] (beBytes 4 4 o.timestamp) (beBytes 8 5 o.random ++ beBytes 4 3 o.counter) true
    rw [l1] at this
    simp only [List.nil_append, List.length_nil, Nat.zero_add] at this
    rw [StrIn.ofBytes, readBE]
    simp only [ObjectID.bson, List.append_assoc] at this ⊢
    rw [this]
    exact ⟨_, rfl⟩
  obtain ⟨t, b1⟩ := b1
  obtain ⟨s2, b2, rfl⟩ := gen 8 5 (by decide) (beBytes 4 4 o.timestamp) (beBytes 8 5 o.random) (beBytes 4 3 o.counter) l2
  obtain ⟨s3, b3, rfl⟩ := gen 4 3 (by decide) (beBytes 4 4 o.timestamp ++ beBytes 8 5 o.random) (beBytes 4 3 o.counter) [] l3
  have hb : o.bson = beBytes 4 4 o.timestamp ++ beBytes 8 5 o.random ++ beBytes 4 3 o.counter := rfl
  rw [List.append_nil] at b3
  rw [l1, ← hb] at b2
  rw [List.length_append, l1, l2, ← hb] at b3
  rw [ObjectID.readBson, b1] at hr
  simp only [Res.ok_bind] at hr
  rw [b2] at hr
  simp only [Res.ok_bind] at hr
  rw [show 4 + 5 = 9 from rfl] at b3 hr
  rw [b3] at hr
  simp only [Res.ok_bind, Res.pure_eq, Res.ok.injEq, Prod.mk.injEq] at hr
  obtain ⟨rfl, -⟩ := hr
  simp only [ObjectID.eq, decide_eq_true_eq] at he
  obtain ⟨-, hr, hc⟩ := he
  have q2 := leNat_lt (beBytes 8 5 o.random).reverse
  have q3 := leNat_lt (beBytes 4 3 o.counter).reverse
  rw [List.length_reverse, l2] at q2
  rw [List.length_reverse, l3] at q3
  obtain ⟨ht1, -, -⟩ := ht
  rw [← fits_iff] at ht1
  simp only [IntKind.fits, IntKind.lo, IntKind.hi, i32] at ht1
  refine ⟨by simp at ht1; omega, by omega, by omega⟩

example : Fits453 ⟨0x65a1b2c3, 0x1234567890, 0xabcdef, []⟩ ∧
    (ObjectID.mk 0x65a1b2c3 0x1234567890 0xabcdef []).bson = [0x65, 0xa1, 0xb2, 0xc3, 0x12, 0x34, 0x56, 0x78, 0x90, 0xab, 0xcd, 0xef] := by decide
example : (ObjectID.mk (-2) 0 5 []).text = b!"fffffffe0000000000000005" := by rw [text_eq _ (by decide)]; decide
/-- A negative random part does not come back. -/
example : Typed ⟨0, -1, 0, []⟩ ∧ ¬ Fits453 ⟨0, -1, 0, []⟩ := by
  refine ⟨?_, by decide⟩; unfold Typed; decide

/-- C43, JSON. The JSON text of an ObjectID is the string of its 24 digits; read back, in front of anything, it gives an equal ObjectID. -/
theorem C43_json (o old : ObjectID) (h : Fits453 o) (post : Bytes) (p : JsonP) (hc : p.lex.convertBackSlash = true) (hg : p.lex.inp.good = true)
    (hr : p.lex.inp.rest = jsonString o.text ++ post) :
    o.json = .addStr o.text ∧ ∃ o' p', old.readJson p = .ok (o', p') ∧ o'.eq o = true ∧ p'.lex.inp.rest = post := by
  refine ⟨rfl, ?_⟩
  obtain ⟨l', h1, h2, -, -⟩ := C01_string_round_trip o.text post p.lex hc hg hr
  obtain ⟨-, -, o', h3, h4⟩ := C43_text o old h []
  rw [List.append_nil] at h3
  refine ⟨o', { p with lex := l' }, ?_, h4, h2⟩
  simp only [ObjectID.readJson, JsonP.getStr, h1, Res.ok_bind, Res.pure_eq, h3]

/-- The identifiers the default constructor makes fit: the random part is a result of `std::rand()`, the counter comes from `getNextCounter`. -/
theorem C43_generated_fits (time rand n c n' : Int) (ht : InRange i32 time) (hr : 0 ≤ rand ∧ rand < 2 ^ 31) (hn : 0 ≤ n)
    (h : ObjectID.nextCounter n = .ok (c, n')) : Fits453 ⟨time, rand, c, []⟩ := by
  unfold ObjectID.nextCounter at h
  split at h
  · simp only [Res.ok.injEq, Prod.mk.injEq] at h
    obtain ⟨rfl, -⟩ := h
    rw [Int.tmod_eq_emod_of_nonneg hn]
    rw [← fits_iff] at ht
    simp only [IntKind.fits, IntKind.lo, IntKind.hi, i32] at ht
    refine ⟨by simp at ht ⊢; omega, by simp; omega, by simp; omega⟩
  · cases h

example : ∃ c n', ObjectID.nextCounter 40000 = .ok (c, n') := ⟨3145, 40001, by decide⟩

/-! ### C51: text, bytes and order agree -/

/-- C51. The text of an ObjectID is the hexadecimal dump of its BSON bytes. -/
theorem C51_text_is_hex_of_bytes (o : ObjectID) (h : Fits453 o) : o.text = hexOf o.bson := by
  obtain ⟨h1, h2, h3⟩ := h
  have e2 : o.random % 2 ^ 64 = o.random % 256 ^ 5 := by
    rw [Int.emod_eq_of_lt (by omega) (by omega), Int.emod_eq_of_lt (by omega) (by omega)]
  have e3 : o.counter % 2 ^ 32 = o.counter % 256 ^ 3 := by
    rw [Int.emod_eq_of_lt (by omega) (by omega), Int.emod_eq_of_lt (by omega) (by omega)]
  rw [ObjectID.text, ObjectID.bson, hexOf_append, hexOf_append, beBytes_eq (by decide), beBytes_eq (by decide), beBytes_eq (by decide)]
  rw [setwHex_bytes 4 32 (by decide) _ rfl, setwHex_bytes 5 64 (by decide) _ e2, setwHex_bytes 3 32 (by decide) _ e3]

/-- C51. ObjectIDs with timestamps from 1970 on compare like their texts (as strings). -/
theorem C51_order_is_text_order (a b : ObjectID) (ha : Fits453 a) (hb : Fits453 b) (ha0 : 0 ≤ a.timestamp) (hb0 : 0 ≤ b.timestamp) :
    a.lt b = keyLt a.text b.text := by
  rw [text_eq a ha, text_eq b hb]
  obtain ⟨a1, a2, a3⟩ := ha
  obtain ⟨b1, b2, b3⟩ := hb
  have ea : a.timestamp % 2 ^ 32 = a.timestamp := Int.emod_eq_of_lt (by omega) (by omega)
  have eb : b.timestamp % 2 ^ 32 = b.timestamp := Int.emod_eq_of_lt (by omega) (by omega)
  rw [ea, eb]
  simp only [List.append_assoc]
  rw [Bool.eq_iff_iff, keyLt_hexFixed _ _ 8 _ _ (by omega) (by omega), keyLt_hexFixed _ _ 10 _ _ (by omega) (by omega),
    ← List.append_nil (hexFixed 6 a.counter.toNat), ← List.append_nil (hexFixed 6 b.counter.toNat), keyLt_hexFixed _ _ 6 _ _ (by omega) (by omega)]
  simp only [ObjectID.lt, decide_eq_true_eq, keyLt, Bool.false_eq_true, and_false, or_false]
  omega

example : (ObjectID.mk 5 7 9 []).lt (ObjectID.mk 5 8 0 []) = true := by decide
/-- With a timestamp before 1970 the orders differ. -/
example : (ObjectID.mk (-1) 0 0 []).lt (ObjectID.mk 0 0 0 []) = true ∧
    keyLt (ObjectID.mk (-1) 0 0 []).text (ObjectID.mk 0 0 0 []).text = false := by
  refine ⟨by decide, ?_⟩
  rw [text_eq _ (by decide), text_eq _ (by decide)]; decide

/-! ### C52: `to_string` -/

/-- C52 (proved part). `to_string` of an ObjectID that has not cached a text, or has cached its own, is its text, however often it is called.
Missing: an ObjectID that was read again after `to_string`. -/
theorem C52_to_string_partial (o : ObjectID) (h : o.str = [] ∨ o.str = o.text) :
    o.toString.1 = o.text ∧ (o.toString.2.str = [] ∨ o.toString.2.str = o.toString.2.text) ∧ o.toString.2.eq o = true := by
  unfold ObjectID.toString
  split
  · simp [ObjectID.eq, ObjectID.text]
  · rename_i hs
    have hs' := h.resolve_left hs
    refine ⟨hs', .inr hs', by simp [ObjectID.eq]⟩

/-- C52 is false: after `to_string`, reading another identifier into the object does not change what `to_string` returns. -/
theorem C52_false : ∃ (o o' : ObjectID) (r : Bytes), o.str = [] ∧ o.toString.2.readText b!"000000020000000000000000" = .ok (o', r) ∧
    o'.text = b!"000000020000000000000000" ∧ o'.toString.1 = b!"000000010000000000000000" := by
  have e1 : (ObjectID.mk 1 0 0 []).text = b!"000000010000000000000000" := by rw [text_eq _ (by decide)]; decide
  refine ⟨⟨1, 0, 0, []⟩, ⟨2, 0, 0, b!"000000010000000000000000"⟩, [], rfl, ?_, ?_, ?_⟩
  · rw [ObjectID.toString, if_pos rfl, e1]; decide
  · rw [text_eq _ (by decide)]; decide
  · decide

/-! ### C48: the other types -/

/-- The reader after a payload of `n` bytes has been read. -/
def behind (s : BsonP) (n : Nat) : BsonP :=
  { s with inp := { s.inp with pos := s.inp.pos + n, good := true },
           left := match s.left with | l :: ls => (l - n) :: ls | [] => [] }

/-- The reader stands in front of these bytes, inside a container. -/
structure InFront (s : BsonP) (b : Bytes) : Prop where
  rest : ∃ post, s.inp.rest = b ++ post
  inside : s.left ≠ []

theorem custom_read {α : Type} (rd : StrIn → Res (α × StrIn)) (a : α) (b : Bytes)
    (hr : ∀ pre post good, rd ⟨pre ++ b ++ post, pre.length, good⟩ = .ok (a, ⟨pre ++ b ++ post, pre.length + b.length, true⟩))
    (s : BsonP) (h : InFront s b) (hb : b ≠ []) : bsonCustomRead rd s = .ok (a, behind s b.length) := by
  obtain ⟨⟨post, hp⟩, hin⟩ := h
  have hpos : s.inp.pos ≤ s.inp.data.length := by
    rcases Nat.lt_or_ge s.inp.data.length s.inp.pos with h' | h'
    · rw [StrIn.rest, List.drop_eq_nil_of_le (by omega)] at hp
      cases b with
      | nil => exact absurd rfl hb
      | cons => simp at hp
    · exact h'
  have hd : s.inp.data = s.inp.data.take s.inp.pos ++ b ++ post := by
    rw [List.append_assoc, ← hp, StrIn.rest, List.take_append_drop]
  have hl : (s.inp.data.take s.inp.pos).length = s.inp.pos := by simp; omega
  obtain ⟨l, ls, hls⟩ : ∃ l ls, s.left = l :: ls := by
    cases hx : s.left with
    | nil => exact absurd hx hin
    | cons l ls => exact ⟨l, ls, rfl⟩
  have hi : s.inp = ⟨s.inp.data.take s.inp.pos ++ b ++ post, (s.inp.data.take s.inp.pos).length, s.inp.good⟩ := by
    rw [← hd, hl]
  rw [bsonCustomRead_at rd a _ b post _ s l ls hi hls (hr _ _ _), behind, ← hd, hl, hls]

/-- This is how the value is written: inside a document the type byte, the key, NUL and the payload; inside an array with the index as the key; on its own
behind the size of a document that holds nothing else. -/
def Writes (w : BPrint.St → Res (List Write × BPrint.St)) (type : Byte) (payload : Bytes) : Prop :=
  (∀ key cs idx, ∃ ws, w ⟨.Map :: cs, idx, key⟩ = .ok (ws, ⟨.Map :: cs, idx, key⟩) ∧ bytesOf ws = type :: key ++ 0x00 :: payload) ∧
  (∀ key cs i is, ∃ ws, w ⟨.Array :: cs, i :: is, key⟩ = .ok (ws, ⟨.Array :: cs, (i + 1) :: is, key⟩) ∧ bytesOf ws = type :: decimal i ++ 0x00 :: payload) ∧
  (∀ key idx, ∃ ws, w ⟨[], idx, key⟩ = .ok (ws, ⟨[], idx, key⟩) ∧ bytesOf ws = le 4 (payload.length + 8 : Nat) ++ type :: 0x30 :: 0x00 :: payload)

theorem custom_writes (mark : Byte) (size : Nat) (body : Bytes) (h : size = body.length) : Writes (bsonCustomWrite mark size body) mark body := by
  refine ⟨fun key cs idx => ⟨_, rfl, ?_⟩, fun key cs i is => ⟨_, rfl, ?_⟩, fun key idx => ⟨_, rfl, ?_⟩⟩
  · simp [bytesOf, bytesIn, Write.bytesIn]
  · simp [bytesOf, bytesIn, Write.bytesIn, natText_decimal]
  · subst h
    simp [bytesOf, bytesIn, Write.bytesIn, leBytes_eq_le]
    congr 1
    omega

/-- C43, the element of an ObjectID. -/
theorem C43_element (o old : ObjectID) (h : Fits453 o) (s : BsonP) (hs : InFront s o.bson) :
    Writes o.write 0x07 o.bson ∧ ∃ o', old.read s = .ok (o', behind s 12) ∧ o'.eq o = true := by
  have hl : o.bson.length = 12 := (C43_binary o old h [] [] true).1
  obtain ⟨⟨post, hp⟩, hin⟩ := hs
  refine ⟨custom_writes _ _ _ hl.symm, ?_⟩
  obtain ⟨-, o', h1, h2⟩ := C43_binary o old h (s.inp.data.take s.inp.pos) post s.inp.good
  have hpos : s.inp.pos ≤ s.inp.data.length := by
    have := congrArg List.length hp
    rw [StrIn.rest, List.length_drop, List.length_append] at this
    omega
  have hd : s.inp.data = s.inp.data.take s.inp.pos ++ o.bson ++ post := by
    rw [List.append_assoc, ← hp, StrIn.rest, List.take_append_drop]
  have hl2 : (s.inp.data.take s.inp.pos).length = s.inp.pos := by simp; omega
  obtain ⟨l, ls, hls⟩ : ∃ l ls, s.left = l :: ls := by
    cases hx : s.left with
    | nil => exact absurd hx hin
    | cons l ls => exact ⟨l, ls, rfl⟩
  refine ⟨o', ?_, h2⟩
  have := bsonCustomRead_at old.readBson o' (s.inp.data.take s.inp.pos) o.bson post s.inp.good s l ls (by rw [← hd, hl2]) hls (by rw [hl]; exact h1)
  rw [ObjectID.read, this, behind, ← hd, hl2, hls, hl]

/-- C48, UTCDateTime. -/
theorem C48_date_time (d : Int) (h : InRange i64 d) (s : BsonP) (hs : InFront s (le 8 d)) :
    Writes (UTCDateTime.write d) 0x09 (le 8 d) ∧
    UTCDateTime.read s = .ok (d, behind s 8) := by
  rw [← leBytes_eq_le] at hs ⊢
  have hl := leBytes_length 8 d
  refine ⟨custom_writes _ _ _ hl.symm, ?_⟩
  have hf : -(2 ^ 63) ≤ d ∧ d ≤ 2 ^ 63 - 1 := by
    have := fits_iff.2 h; simp only [IntKind.fits, IntKind.lo, IntKind.hi, i64] at this; simpa using this
  have := custom_read (readLE 8) d (leBytes 8 d) (fun pre post good => by rw [readLE_at 8 d (by simp; omega) (by simp; omega), hl]) s hs
    (by intro e; rw [e] at hl; cases hl)
  rw [hl] at this
  exact this

/-- C48, BsonTimeStamp. -/
theorem C48_time_stamp (t : BsonTimeStamp) (h1 : InRange u32 t.increment) (h2 : InRange u32 t.timestamp) (s : BsonP) (hs : InFront s t.bson) :
    Writes (t.write) 0x11 t.bson ∧
    t.bson.length = 8 ∧ BsonTimeStamp.read s = .ok (t, behind s 8) := by
  have l1 := beBytes_length 4 4 (by decide) (castTo i32 t.increment)
  have l2 := beBytes_length 4 4 (by decide) (castTo i32 t.timestamp)
  have hl : t.bson.length = 8 := by simp [BsonTimeStamp.bson, l1, l2]
  refine ⟨custom_writes _ _ _ hl.symm, hl, ?_⟩
  have cast : ∀ v, InRange u32 v → -(2 ^ (8 * 4)) ≤ 2 * castTo i32 v ∧ 2 * castTo i32 v < 2 ^ (8 * 4) ∧ castTo u32 (castTo i32 v) = v := by
    intro v hv
    rw [← fits_iff] at hv
    simp only [IntKind.fits, IntKind.lo, IntKind.hi, u32] at hv
    simp only [castTo, i32, u32]
    simp at hv ⊢
    split <;> omega
  obtain ⟨c1, c2, c3⟩ := cast _ h1
  obtain ⟨d1, d2, d3⟩ := cast _ h2
  have := custom_read BsonTimeStamp.readBson t t.bson (fun pre post good => by
    have e1 := readBE_at 4 4 (by decide) (castTo i32 t.increment) (by simp; omega) pre (beBytes 4 4 (castTo i32 t.timestamp) ++ post) good
    have e2 := readBE_at 4 4 (by decide) (castTo i32 t.timestamp) (by simp; omega) (pre ++ beBytes 4 4 (castTo i32 t.increment)) post true
    generalize hd : pre ++ t.bson ++ post = data
    rw [BsonTimeStamp.bson] at hd
    simp only [List.append_assoc] at hd e1 e2
    rw [hd] at e1 e2
    simp only [List.length_append, l1] at e2
    rw [BsonTimeStamp.readBson, e1]
    simp only [Res.ok_bind]
    rw [e2]
    simp only [Res.ok_bind, Res.pure_eq, c3, d3, hl]) s hs (by intro e; rw [e] at hl; cases hl)
  rw [hl] at this
  exact this

/-- C48, binary data of up to 2^31 - 1 bytes. -/
theorem C48_binary_data (b old : Bytes) (h : b.length < 2 ^ 31) (s : BsonP)
    (hs : InFront s (le 4 b.length ++ 0x08 :: b)) :
    Writes (BinaryData.write b) 0x05 (le 4 b.length ++ 0x08 :: b) ∧
    (le 4 b.length ++ 0x08 :: b).length = BinaryData.size b ∧ BinaryData.read old s = .ok (b, behind s (BinaryData.size b)) := by
  rw [← leBytes_eq_le] at hs ⊢
  have hl : (leBytes 4 b.length ++ 0x08 :: b).length = BinaryData.size b := by simp [leBytes_length, BinaryData.size]; omega
  refine ⟨?_, hl, ?_⟩
  · have := custom_writes 0x05 (BinaryData.size b) (BinaryData.bson b) (by rw [← hl, BinaryData.bson]; simp)
    rw [show BinaryData.bson b = leBytes 4 b.length ++ 0x08 :: b by simp [BinaryData.bson]] at this
    rw [show BinaryData.write b = bsonCustomWrite 0x05 (BinaryData.size b) (leBytes 4 b.length ++ 0x08 :: b) by
      funext st; simp [BinaryData.write, BinaryData.bson]]
    exact this
  have := custom_read (BinaryData.readBson old) b (leBytes 4 b.length ++ 0x08 :: b) (fun pre post good => by
    have e1 := readLE_at 4 (b.length : Int) (by simp; omega) (by simp; omega) pre (0x08 :: b ++ post) good
    have e2 := read_at (pre ++ leBytes 4 b.length) [0x08] (b ++ post) true
    have e3 := read_at (pre ++ leBytes 4 b.length ++ [0x08]) b post true
    generalize hd : pre ++ (leBytes 4 b.length ++ 0x08 :: b) ++ post = data
    simp only [List.append_assoc, List.cons_append, List.nil_append] at hd e1 e2 e3
    rw [hd] at e1 e2 e3
    simp only [List.length_append, leBytes_length, List.length_cons, List.length_nil] at e2 e3
    rw [BinaryData.readBson, e1]
    simp only [Res.ok_bind]
    rw [if_neg (by omega), show (1 : Nat) = 0 + 1 from rfl, e2]
    simp only [Res.ok_bind, Int.toNat_natCast, readOver]
    rw [e3]
    simp only [Res.ok_bind, Res.pure_eq]
    rw [List.drop_eq_nil_of_le (by simp [resizeBytes]; omega), List.append_nil]
    simp only [List.length_append, leBytes_length, List.length_cons]
    congr 3
    omega) s hs (by intro e; have := congrArg List.length e; rw [hl] at this; simp [BinaryData.size] at this)
  rw [hl] at this
  exact this

/-- C48, JavaScript code. -/
theorem C48_javascript (b old : Bytes) (h : b.length + 1 < 2 ^ 31) (s : BsonP)
    (hs : InFront s (le 4 (b.length + 1 : Nat) ++ b ++ [0x00])) :
    Writes (Javascript.write b) 0x0D (le 4 (b.length + 1 : Nat) ++ b ++ [0x00]) ∧
    (le 4 (b.length + 1 : Nat) ++ b ++ [0x00]).length = Javascript.size b ∧ Javascript.read old s = .ok (b, behind s (Javascript.size b)) := by
  rw [← leBytes_eq_le] at hs ⊢
  have hl : (leBytes 4 (b.length + 1 : Nat) ++ b ++ [0x00]).length = Javascript.size b := by simp [leBytes_length, Javascript.size]; omega
  refine ⟨?_, hl, ?_⟩
  · have := custom_writes 0x0D (Javascript.size b) (Javascript.bson b) (by rw [← hl, Javascript.bson])
    exact this
  have := custom_read (Javascript.readBson old) b (leBytes 4 (b.length + 1 : Nat) ++ b ++ [0x00]) (fun pre post good => by
    have e1 := readLE_at 4 ((b.length + 1 : Nat) : Int) (by simp; omega) (by simp; omega) pre (b ++ [0x00] ++ post) good
    have e2 := read_at (pre ++ leBytes 4 (b.length + 1 : Nat)) (b ++ [0x00]) post true
    generalize hd : pre ++ (leBytes 4 (b.length + 1 : Nat) ++ b ++ [0x00]) ++ post = data
    simp only [List.append_assoc] at hd e1 e2
    rw [hd] at e1 e2
    simp only [List.length_append, leBytes_length, List.length_cons, List.length_nil, Nat.zero_add] at e2
    rw [Javascript.readBson, e1]
    simp only [Res.ok_bind]
    rw [if_neg (by omega)]
    simp only [Int.toNat_natCast, readOver]
    rw [e2]
    simp only [Res.ok_bind, Res.pure_eq]
    rw [if_neg (by omega), List.drop_eq_nil_of_le (by simp [resizeBytes]; omega), List.append_nil]
    simp only [List.length_append, leBytes_length, List.length_cons, resizeBytes, List.length_nil]
    rw [show b.length + 1 - 1 = b.length by omega, List.take_left', show b.length - (b.length + (0 + 1)) = 0 by omega]
    · simp only [List.replicate_zero, List.append_nil]
      congr 3
      omega
    · rfl) s hs (by intro e; have := congrArg List.length e; rw [hl] at this; simp [Javascript.size] at this)
  rw [hl] at this
  exact this

/-- C48, regular expressions whose pattern and options are C strings (no NUL in them). -/
theorem C48_regex (r : Bytes × Bytes) (h1 : 0x00 ∉ r.1) (h2 : 0x00 ∉ r.2) (s : BsonP)
    (hs : InFront s (r.1 ++ [0x00] ++ r.2 ++ [0x00])) :
    Writes (RegEx.write r) 0x0B (r.1 ++ [0x00] ++ r.2 ++ [0x00]) ∧
    (r.1 ++ [0x00] ++ r.2 ++ [0x00]).length = RegEx.size r ∧ RegEx.read s = .ok (r, behind s (RegEx.size r)) := by
  have hl : (r.1 ++ [0x00] ++ r.2 ++ [0x00]).length = RegEx.size r := by simp [RegEx.size]; omega
  refine ⟨custom_writes _ _ _ hl.symm, hl, ?_⟩
  have := custom_read RegEx.readBson r (r.1 ++ [0x00] ++ r.2 ++ [0x00]) (fun pre post good => by
    have e1 := readTo_at 0x00 r.1 h1 pre (r.2 ++ [0x00] ++ post) good
    have e2 := readTo_at 0x00 r.2 h2 (pre ++ (r.1 ++ [0x00])) post true
    generalize hd : pre ++ (r.1 ++ [0x00] ++ r.2 ++ [0x00]) ++ post = data
    simp only [List.append_assoc, List.cons_append, List.nil_append] at hd e1 e2
    rw [hd] at e1 e2
    simp only [List.length_append, List.length_cons, List.length_nil, Nat.zero_add] at e2
    rw [RegEx.readBson, e1]
    simp only [Res.ok_bind]
    rw [e2]
    simp only [Res.ok_bind, Res.pure_eq, List.length_append, List.length_cons, List.length_nil]
    congr 3
    omega) s hs (by simp)
  rw [hl] at this
  exact this

/-- A reader in front of a payload. -/
def inFrontOf (type : Byte) (b : Bytes) : BsonP := ⟨⟨[0xAA] ++ b ++ [0x00], 1, true⟩, [.Map], [100], [104], .Value, b!"k", type, true⟩

example : InFront (inFrontOf 0x09 (le 8 (-5))) (le 8 (-5)) := ⟨⟨[0x00], by decide⟩, by decide⟩
example : InFront (inFrontOf 0x11 (BsonTimeStamp.bson ⟨1, 0x80000000⟩)) (BsonTimeStamp.bson ⟨1, 0x80000000⟩) ∧ InRange u32 0x80000000 := ⟨⟨⟨[0x00], by decide⟩, by decide⟩, by decide⟩
example : InFront (inFrontOf 0x05 (le 4 3 ++ 0x08 :: [1, 0, 3])) (le 4 3 ++ 0x08 :: [1, 0, 3]) := ⟨⟨[0x00], by decide⟩, by decide⟩
example : InFront (inFrontOf 0x0D (le 4 4 ++ b!"x()" ++ [0x00])) (le 4 4 ++ b!"x()" ++ [0x00]) := ⟨⟨[0x00], by decide⟩, by decide⟩
example : InFront (inFrontOf 0x0B (b!"a*" ++ [0x00] ++ b!"i" ++ [0x00])) (b!"a*" ++ [0x00] ++ b!"i" ++ [0x00]) := ⟨⟨[0x00], by decide⟩, by decide⟩

/-- C48, JSON: a date is written and read as a number. -/
theorem C48_date_time_json (d : Int) (h : InRange i64 d) (post : Bytes) (hp : numberEnds post) (p : JsonP) (hg : p.lex.inp.good = true)
    (hr : p.lex.inp.rest = intText d ++ post) :
    UTCDateTime.json d = .addInt i64 d ∧ ∃ p', UTCDateTime.readJson p = .ok (d, p') ∧ p'.lex.inp.rest = post := by
  refine ⟨rfl, ?_⟩
  obtain ⟨l', h1, h2, -, -⟩ := C08_int_round_trip i64 d h post hp p.lex hg hr
  exact ⟨{ p with lex := l' }, by simp only [UTCDateTime.readJson, JsonP.getInt, h1, Res.ok_bind, Res.pure_eq], h2⟩

/-- C48, JSON: a time stamp is written as a string, from which it is read back. -/
theorem C48_time_stamp_json (t old : BsonTimeStamp) (h1 : InRange u32 t.increment) (h2 : InRange u32 t.timestamp) (post : Bytes) (p : JsonP)
    (hc : p.lex.convertBackSlash = true) (hg : p.lex.inp.good = true) (hr : p.lex.inp.rest = jsonString t.text ++ post) :
    t.json = .addStr t.text ∧ ∃ p', BsonTimeStamp.readJson old p = .ok (t, p') ∧ p'.lex.inp.rest = post := by
  refine ⟨rfl, ?_⟩
  obtain ⟨l', e1, e2, -, -⟩ := C01_string_round_trip t.text post p.lex hc hg hr
  rw [← fits_iff] at h1 h2
  simp only [IntKind.fits, IntKind.lo, IntKind.hi, u32] at h1 h2
  simp at h1 h2
  have m1 : t.increment % 2 ^ 32 = t.increment := Int.emod_eq_of_lt (by omega) (by omega)
  have m2 : t.timestamp % 2 ^ 32 = t.timestamp := Int.emod_eq_of_lt (by omega) (by omega)
  obtain ⟨w, -, hw, hh⟩ := hexText_fixed 7 t.increment.toNat (by omega)
  have hx : t.text = 0x22 :: (hexFixed 8 t.timestamp.toNat ++ 0x2D :: (hexFixed (w + 1) t.increment.toNat ++ [0x22])) := by
    rw [BsonTimeStamp.text, setwHex_fixed 7 32 _ (by omega), m2, setwHex, m1, hh]
    simp
  have ht : BsonTimeStamp.readText old t.text = .ok t := by
    rw [hx, BsonTimeStamp.readText, show ∀ s, extractChar none (0x22 :: s) = (some 0x22, s) from fun s => rfl]
    simp only [reduceCtorEq, if_false]
    rw [extractHex_fixed 7 _ (by omega) (by omega) 0x2D _ (by decide) (by decide)]
    simp only [Res.ok_bind]
    rw [show ∀ s, extractChar none (0x2D :: s) = (some 0x2D, s) from fun s => rfl]
    simp only [reduceCtorEq, if_false]
    rw [extractHex_fixed w _ hw (by omega) 0x22 _ (by decide) (by decide)]
    simp only [Res.ok_bind, Res.pure_eq, Int.toNat_of_nonneg h1.1, Int.toNat_of_nonneg h2.1]
  exact ⟨{ p with lex := l' }, by simp only [BsonTimeStamp.readJson, JsonP.getStr, e1, Res.ok_bind, Res.pure_eq, ht], e2⟩

example : (BsonTimeStamp.mk 0x1F 0xABC).text = b!"\"00000abc-1f\"" := by
  rw [BsonTimeStamp.text, setwHex_fixed 7 32 _ (by decide), setwHex]
  have : hexText ((BsonTimeStamp.mk 0x1F 0xABC).increment % 2 ^ 32).toNat = b!"1f" := by
    rw [hexText, dif_neg (by decide), hexText, dif_pos (by decide)]; decide
  rw [this]
  decide

/-! ### C49, C50: time stamps -/

/-- C49 (proved part). `asDateTime` gives the number of seconds times 1000, reduced modulo 2^32; so it is the same instant exactly for the
time stamps of the first 4294967 seconds (until 19 February 1970). -/
theorem C49_as_date_time_partial (t : BsonTimeStamp) (h : InRange u32 t.timestamp) :
    t.asDateTime = (t.timestamp * 1000) % 2 ^ 32 ∧ (t.asDateTime = t.timestamp * 1000 ↔ t.timestamp ≤ 4294967) := by
  refine ⟨rfl, ?_⟩
  rw [← fits_iff] at h
  simp only [IntKind.fits, IntKind.lo, IntKind.hi, u32] at h
  simp at h
  rw [BsonTimeStamp.asDateTime]
  omega

/-- C49 is false: the start of the year 2024. -/
theorem C49_false : ∃ t : BsonTimeStamp, InRange u32 t.timestamp ∧ t.asDateTime ≠ t.timestamp * 1000 := ⟨⟨0, 1704067200⟩, by decide⟩

example : (BsonTimeStamp.mk 0 4294967).asDateTime = 4294967000 := by decide

/-- C50 (proved part). The payload of a time stamp is the increment and then the time stamp, each most significant byte first. -/
theorem C50_stored_partial (t : BsonTimeStamp) : t.bson = be 4 t.increment ++ be 4 t.timestamp := by
  have : ∀ v, beBytes 4 4 (castTo i32 v) = be 4 v := by
    intro v
    rw [beBytes_eq (by decide), be, ← leBytes_eq_le]
    congr 1
    rw [← leBytes_emod 4 (castTo i32 v), ← leBytes_emod 4 v]
    congr 1
    simp only [castTo, i32]
    simp
    split <;> omega
  rw [BsonTimeStamp.bson, this, this]

/-- C50 is false: bsonspec.org prescribes an unsigned 64 bit integer, least significant byte first, with the increment in the low half. -/
theorem C50_false : ∃ t : BsonTimeStamp, InRange u32 t.increment ∧ InRange u32 t.timestamp ∧ t.bson ≠ le 8 (t.timestamp * 2 ^ 32 + t.increment) :=
  ⟨⟨1, 0⟩, by decide⟩

example : (BsonTimeStamp.mk 1 2).bson = [0, 0, 0, 1, 0, 0, 0, 2] := by decide

/-! ### C53: skipping the elements -/

/-- C53 (proved part). Skipping an element that holds an ObjectID, a date, a time stamp or binary data leaves the reader where reading it would have.
Missing: JavaScript code and regular expressions. -/
theorem C53_skip_like_read_partial (s : BsonP) (hskip : s.skip = true) (b : Bytes) (hs : InFront s b) :
    (s.type = 0x07 → b.length = 12 → s.ignoreDataValue = .ok (behind s 12)) ∧
    (s.type = 0x09 → b.length = 8 → s.ignoreDataValue = .ok (behind s 8)) ∧
    (s.type = 0x11 → b.length = 8 → s.ignoreDataValue = .ok (behind s 8)) ∧
    (s.type = 0x05 → ∀ c : Bytes, c.length + 5 < 2 ^ 31 → b = le 4 c.length ++ 0x08 :: c → s.ignoreDataValue = .ok (behind s (BinaryData.size c))) := by
  obtain ⟨⟨post, hp⟩, hin⟩ := hs
  obtain ⟨l, ls, hls⟩ : ∃ l ls, s.left = l :: ls := by
    cases hx : s.left with
    | nil => exact absurd hx hin
    | cons l ls => exact ⟨l, ls, rfl⟩
  have hpos : b ≠ [] → s.inp.pos + b.length ≤ s.inp.data.length := by
    intro hb
    have := congrArg List.length hp
    rw [StrIn.rest, List.length_drop, List.length_append] at this
    have : 0 < b.length := by cases b with | nil => exact absurd rfl hb | cons => simp
    omega
  have move : ∀ n : Nat, b.length = n → 0 < n → s.ignoreBytes (n : Int) = .ok (behind s n) := by
    intro n hn h0
    have := hpos (by intro e; rw [e] at hn; simp at hn; omega)
    simp only [BsonP.ignoreBytes, BsonP.use, hls, StrIn.ignoreInt, behind]
    rw [if_pos (by omega), Int.toNat_natCast]
    have : decide (s.inp.pos + n ≤ s.inp.data.length) = true := by rw [decide_eq_true_eq]; omega
    rw [this]
  refine ⟨?_, ?_, ?_, ?_⟩
  · intro ht hn; rw [BsonP.ignoreDataValue, if_neg (by rw [hskip]; decide), ht]; exact move 12 hn (by decide)
  · intro ht hn; rw [BsonP.ignoreDataValue, if_neg (by rw [hskip]; decide), ht]; exact move 8 hn (by decide)
  · intro ht hn; rw [BsonP.ignoreDataValue, if_neg (by rw [hskip]; decide), ht]; exact move 8 hn (by decide)
  · intro ht c hc hb
    have hl : b.length = 5 + c.length := by rw [hb]; simp [le_length]; omega
    have hlen := hpos (by intro e; rw [e] at hl; simp at hl; omega)
    rw [BsonP.ignoreDataValue, if_neg (by rw [hskip]; decide), ht]
    simp only [show (0x05 : UInt8) = 0x01 ↔ False by decide, show (0x05 : UInt8) = 0x13 ↔ False by decide, show (0x05 : UInt8) = 0x10 ↔ False by decide,
      show (0x05 : UInt8) = 0x12 ↔ False by decide, show (0x05 : UInt8) = 0x07 ↔ False by decide, show (0x05 : UInt8) = 0x08 ↔ False by decide,
      show (0x05 : UInt8) = 0x09 ↔ False by decide, show (0x05 : UInt8) = 0x11 ↔ False by decide, show (0x05 : UInt8) = 0x0A ↔ False by decide,
      show (0x05 : UInt8) = 0x02 ↔ False by decide, if_false, if_true]
    have hd : s.inp.data = s.inp.data.take s.inp.pos ++ leBytes 4 c.length ++ (0x08 :: c ++ post) := by
      have e : 0x08 :: c ++ post = 0x08 :: (c ++ post) := rfl
      rw [e, List.append_assoc, leBytes_eq_le]
      rw [hb, List.append_assoc, List.cons_append] at hp
      rw [← hp, StrIn.rest, List.take_append_drop]
    have hl2 : (s.inp.data.take s.inp.pos).length = s.inp.pos := by simp; omega
    have hi : s.inp = ⟨s.inp.data.take s.inp.pos ++ leBytes 4 c.length ++ (0x08 :: c ++ post), (s.inp.data.take s.inp.pos).length, s.inp.good⟩ := by
      rw [← hd, hl2]
    have hrd := readLE_at 4 (c.length : Int) (by simp; omega) (by simp; omega) (s.inp.data.take s.inp.pos) (0x08 :: c ++ post) s.inp.good
    rw [← hi, ← hd, hl2] at hrd
    rw [BsonP.ignoreSized, hrd]
    simp only [Res.ok_bind]
    rw [if_neg (by omega)]
    simp only [BsonP.use, hls, StrIn.ignoreInt, behind, BinaryData.size]
    rw [if_pos (by omega)]
    have hx : s.inp.pos + 4 + ((c.length : Int) + 1).toNat = s.inp.pos + (4 + 1 + c.length) := by omega
    have : decide (s.inp.pos + (4 + 1 + c.length) ≤ s.inp.data.length) = true := by rw [decide_eq_true_eq]; omega
    rw [hx, this]
    congr 3
    omega

example : InFront (inFrontOf 0x07 (ObjectID.mk 1 2 3 []).bson) (ObjectID.mk 1 2 3 []).bson := ⟨⟨[0x00], by decide⟩, by decide⟩

/-- C53 is false: a regular expression and JavaScript code, which the library writes, cannot be skipped by it: the import fails. -/
theorem C53_false (s : BsonP) (hskip : s.skip = true) (ht : s.type = 0x0B ∨ s.type = 0x0D) : s.ignoreDataValue = throwStd := by
  rw [BsonP.ignoreDataValue, if_neg (by rw [hskip]; decide)]
  rcases ht with ht | ht <;> rw [ht] <;> rfl

example : ∃ ws st, RegEx.write (b!"a", b!"i") ⟨[.Map], [], b!"re"⟩ = .ok (ws, st) ∧ (bytesOf ws).head? = some 0x0B ∧
    ∃ ws st, Javascript.write b!"f()" ⟨[.Map], [], b!"js"⟩ = .ok (ws, st) ∧ (bytesOf ws).head? = some 0x0D :=
  ⟨_, _, rfl, by decide, _, _, rfl, by decide⟩

/-! ### C54: element types -/

/-- C54 is false: the type of the element is not looked at. An ObjectID is read from an element of any type without an error, for example from
a date, whose eight bytes and what follows them it swallows. -/
theorem C54_false (o old : ObjectID) (h : Fits453 o) (s : BsonP) (hs : InFront s o.bson) :
    ∃ o', old.read s = .ok (o', behind s 12) ∧ o'.eq o = true ∧ ∀ type, old.read { s with type := type } = .ok (o', { behind s 12 with type := type }) := by
  have hl : o.bson.length = 12 := (C43_binary o old h [] [] true).1
  have hne : o.bson ≠ [] := by intro e; rw [e] at hl; cases hl
  obtain ⟨-, o', -, he⟩ := C43_binary o old h [] [] true
  have ho : ∀ pre post good, old.readBson ⟨pre ++ o.bson ++ post, pre.length, good⟩ = .ok ({ old with timestamp := o.timestamp, random := o.random, counter := o.counter }, ⟨pre ++ o.bson ++ post, pre.length + 12, true⟩) := by
    intro pre post good
    obtain ⟨-, o2, h2, he2⟩ := C43_binary o old h pre post good
    rw [h2]
    have hstr : o2.str = old.str := by
      rw [ObjectID.readBson] at h2
      obtain ⟨a, -, h2⟩ := Res.bind_eq_ok.1 h2
      obtain ⟨b, -, h2⟩ := Res.bind_eq_ok.1 h2
      obtain ⟨c, -, h2⟩ := Res.bind_eq_ok.1 h2
      simp only [Res.pure_eq, Res.ok.injEq, Prod.mk.injEq] at h2
      rw [← h2.1]
    simp only [ObjectID.eq, decide_eq_true_eq] at he2
    obtain ⟨t, r, c, st⟩ := o2
    simp only at he2 hstr
    obtain ⟨rfl, rfl, rfl⟩ := he2
    subst hstr
    rfl
  refine ⟨{ old with timestamp := o.timestamp, random := o.random, counter := o.counter }, ?_, by simp [ObjectID.eq], ?_⟩
  · have := custom_read old.readBson _ o.bson (by rw [hl]; exact ho) s hs hne
    rw [hl] at this
    exact this
  · intro type
    have := custom_read old.readBson _ o.bson (by rw [hl]; exact ho) { s with type := type } ⟨hs.rest, hs.inside⟩ hne
    rw [hl] at this
    exact this

/-- C54 (proved part). Where the input has a document, an array, a key or an end instead of a simple value, reading any of the types fails, whatever
the format. Missing: simple values of another type. -/
theorem C54_not_a_value_partial {σ α : Type} (o : POps σ) (body : σ → Res (α × σ)) (p : PI σ) (t : Tok) (s : σ) (h1 : p.pb1 = .Error) (h2 : p.pb2 = .Error)
    (hn : o.next p.inner = .ok (t, s)) (ht : t ≠ .Value) : customRead o body p = throwStd := by
  simp only [customRead, PI.getToken, h1, h2, ne_eq, not_true_eq_false, if_false, hn, Res.ok_bind, Res.pure_eq, if_pos ht]

example : ∃ s, BsonP.ops.next (BsonP.mk ⟨[5, 0, 0, 0, 0], 0, true⟩ [.Map, .Map] [100] [104] .MapStart b!"k" 0x03 false) = .ok (.MapStart, s) :=
  ⟨_, rfl⟩

end Thors.Props
