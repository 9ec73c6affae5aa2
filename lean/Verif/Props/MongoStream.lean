import Verif.Model.MongoStream
import Verif.Props.Mongo
/-
C127. Writing an ObjectID or a time stamp to a stream.
-/
namespace Thors.Props
open Thors Spec StrIn

/-- Flags that leave the text of hexadecimal numbers as it is: neither `std::showbase` nor `std::uppercase` nor `std::left` (whatever the base). -/
def Plain (f : OFmt) : Prop := f.flags.showbase = false ∧ f.flags.uppercase = false ∧ f.flags.adjust ≠ .left

private theorem putHex_plain {a : Adjust} (h : a ≠ .left) (b : Base) (p w bits : Nat) (v : Int) :
    OFmt.putHex ⟨⟨b, false, false, a⟩, p, w, 0x30⟩ bits v = (setwHex w bits v, ⟨⟨b, false, false, a⟩, p, 0, 0x30⟩) := by
  cases a with
  | left => exact absurd rfl h
  | right => simp [OFmt.putHex, OFmt.pad, setwHex]
  | internal => simp [OFmt.putHex, OFmt.pad, setwHex]

private theorem putText_plain (fl : Flags) (p : Nat) (c : Byte) (s : Bytes) : OFmt.putText ⟨fl, p, 0, c⟩ s = (s, ⟨fl, p, 0, c⟩) := by
  obtain ⟨b, x, u, a⟩ := fl
  cases a <;> simp [OFmt.putText, OFmt.pad]

/-- C127: whatever base, precision, width and fill character the stream has, an ObjectID is written as its text (24 digits, C43), and the
stream's flags and precision are the same afterwards. -/
theorem C127_object_id_partial (o : ObjectID) (f : OFmt) (h : Plain f) :
    (o.put f).1 = o.text ∧ (o.put f).2.flags = f.flags ∧ (o.put f).2.precision = f.precision ∧ (o.put f).2.width = 0 := by
  obtain ⟨⟨b, s, u, a⟩, p, w, c⟩ := f
  obtain ⟨h1, h2, h3⟩ := h
  simp only at h1 h2 h3
  subst h1 h2
  simp only [ObjectID.put, putHex_plain h3, OFmt.restore, ObjectID.text, and_self]

/-- C127: the same for a time stamp, on a stream without a width. -/
theorem C127_time_stamp_partial (t : BsonTimeStamp) (f : OFmt) (h : Plain f) (hw : f.width = 0) :
    (t.put f).1 = t.text ∧ (t.put f).2.flags = f.flags ∧ (t.put f).2.precision = f.precision ∧ (t.put f).2.width = 0 := by
  obtain ⟨⟨b, s, u, a⟩, p, w, c⟩ := f
  obtain ⟨h1, h2, h3⟩ := h
  simp only at h1 h2 h3 hw
  subst h1 h2 hw
  simp only [BsonTimeStamp.put, putText_plain, putHex_plain h3, OFmt.restore, BsonTimeStamp.text, and_self, and_true]

/-- C127 is false: the fill character is not restored. After an ObjectID or a time stamp was written, every stream fills with `0`. -/
theorem C127_fill_false (o : ObjectID) (t : BsonTimeStamp) (f : OFmt) : (o.put f).2.fill = 0x30 ∧ (t.put f).2.fill = 0x30 := by
  have h : ∀ (g : OFmt) b v, (g.putHex b v).2.fill = g.fill := by
    intro g b v
    simp only [OFmt.putHex]
    split <;> rfl
  have ht : ∀ (g : OFmt) s, (g.putText s).2.fill = g.fill := fun g s => rfl
  simp only [ObjectID.put, BsonTimeStamp.put, OFmt.restore, h, ht, and_self]

/-- So what the program writes next with a width is padded with zeros: `stream << id << std::setw(5) << "ab"` writes `000ab`. -/
theorem C127_next_false (o : ObjectID) (f : OFmt) (hr : f.flags.adjust = .right) (w : Nat) (s : Bytes) :
    ({ (o.put f).2 with width := w }.putText s).1 = List.replicate (w - s.length) 0x30 ++ s := by
  have hfl : (o.put f).2.flags = f.flags := rfl
  simp only [OFmt.putText, OFmt.pad, hfl, hr, (C127_fill_false o ⟨0, 0⟩ f).1]
  simp

private theorem hexText_long : ∀ (k n : Nat), 16 ^ k ≤ n → k < (hexText n).length
  | 0, n, _ => by
    rw [hexText]
    split <;> simp
  | k + 1, n, h => by
    have h16 : 16 ≤ 16 ^ (k + 1) := by rw [Nat.pow_succ]; have := Nat.pow_pos (n := k) (show 0 < 16 by decide); omega
    rw [hexText, dif_neg (by omega), List.length_append]
    have := hexText_long k (n / 16) (by rw [Nat.le_div_iff_mul_le (by decide)]; rw [Nat.pow_succ] at h; exact h)
    simp only [List.length_singleton]
    omega

private theorem pad_long (f : OFmt) (pre body : Bytes) : f.width ≤ (f.pad pre body).1.length ∧ pre.length + body.length ≤ (f.pad pre body).1.length := by
  simp only [OFmt.pad]
  cases f.flags.adjust <;> simp <;> omega

private theorem putHex_long (f : OFmt) (bits : Nat) (v : Int) : f.width ≤ (f.putHex bits v).1.length ∧
    (f.flags.showbase = true → (v % (2 ^ bits : Int)).toNat ≠ 0 → 2 + (hexText (v % (2 ^ bits : Int)).toNat).length ≤ (f.putHex bits v).1.length) := by
  simp only [OFmt.putHex]
  split
  · refine ⟨(pad_long _ _ _).1, fun h1 h2 => ?_⟩
    have := (pad_long f ((if f.flags.showbase = true ∧ (v % (2 ^ bits : Int)).toNat ≠ 0 then [0x30, 0x78] else []).map OFmt.upper)
      ((hexText (v % (2 ^ bits : Int)).toNat).map OFmt.upper)).2
    rw [List.length_map, List.length_map] at this
    rw [if_pos ⟨h1, h2⟩] at this ⊢
    exact this
  · refine ⟨(pad_long _ _ _).1, fun h1 h2 => ?_⟩
    have := (pad_long f (if f.flags.showbase = true ∧ (v % (2 ^ bits : Int)).toNat ≠ 0 then [0x30, 0x78] else []) (hexText (v % (2 ^ bits : Int)).toNat)).2
    rw [if_pos ⟨h1, h2⟩] at this ⊢
    exact this

/-- C127 is false for streams with `std::showbase`: no ObjectID made since 1978 is written with 24 characters. -/
theorem C127_showbase_false (o : ObjectID) (f : OFmt) (hs : f.flags.showbase = true) (ht : 2 ^ 28 ≤ o.timestamp) (ht' : o.timestamp < 2 ^ 31) :
    24 < (o.put f).1.length := by
  have hn : (o.timestamp % (2 ^ 32 : Int)).toNat = o.timestamp.toNat := by omega
  have h1 := (putHex_long { f with flags := { f.flags with base := .hex }, fill := 0x30, width := 8 } 32 o.timestamp).2 hs (by omega)
  have h2 := hexText_long 7 o.timestamp.toNat (by omega)
  rw [hn] at h1
  simp only [ObjectID.put, List.length_append]
  generalize hg1 : OFmt.putHex _ 32 o.timestamp = g1 at h1 ⊢
  have h3 := (putHex_long { g1.2 with width := 10 } 64 o.random).1
  generalize hg2 : OFmt.putHex _ 64 o.random = g2 at h3 ⊢
  have h4 := (putHex_long { g2.2 with width := 6 } 32 o.counter).1
  simp only at h3 h4 ⊢
  omega

/-- non-vacuity: an ObjectID on a stream with `std::oct`, a width and `*` as fill character, which is lost; and on one with `std::showbase`. -/
example : ((ObjectID.put ⟨0x507f1f77, 0xbcf86cd799, 0x439011, []⟩ ⟨{ base := .oct }, 3, 30, 0x2A⟩).1 = b!"507f1f77bcf86cd799439011" ∧
    (ObjectID.put ⟨0x507f1f77, 0xbcf86cd799, 0x439011, []⟩ ⟨{ base := .oct }, 3, 30, 0x2A⟩).2 = ⟨{ base := .oct }, 3, 0, 0x30⟩) ∧
    24 < (ObjectID.put ⟨0x507f1f77, 0xbcf86cd799, 0x439011, []⟩ { flags := { showbase := true } }).1.length ∧
    (BsonTimeStamp.put ⟨7, 0x507f1f77⟩ {}).1 = b!"\"507f1f77-7\"" := by
  refine ⟨⟨?_, ?_⟩, C127_showbase_false _ _ rfl (by decide) (by decide), ?_⟩
  · exact (C127_object_id_partial _ _ ⟨rfl, rfl, by decide⟩).1.trans (by decide +kernel)
  · have h := C127_object_id_partial ⟨0x507f1f77, 0xbcf86cd799, 0x439011, []⟩ ⟨{ base := .oct }, 3, 30, 0x2A⟩ ⟨rfl, rfl, by decide⟩
    have h' := (C127_fill_false ⟨0x507f1f77, 0xbcf86cd799, 0x439011, []⟩ ⟨0, 0⟩ ⟨{ base := .oct }, 3, 30, 0x2A⟩).1
    generalize (ObjectID.put ⟨0x507f1f77, 0xbcf86cd799, 0x439011, []⟩ ⟨{ base := .oct }, 3, 30, 0x2A⟩).2 = g at h h'
    obtain ⟨fl, p, w, c⟩ := g
    simp only at h h'
    rw [h.2.1, h.2.2.1, h.2.2.2, h']
  · exact (C127_time_stamp_partial _ _ ⟨rfl, rfl, by decide⟩ rfl).1.trans (by decide +kernel)

end Thors.Props
