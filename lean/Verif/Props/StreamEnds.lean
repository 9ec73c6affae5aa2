import Verif.Proofs.JsonSEndsExtract
import Verif.Props.Ends
import Verif.Props.Stream
/-
C107: importing JSON from a stream comes to an end and stays within the objects and the text.
-/
namespace Thors.Props
open Spec StrIn

/-- C107, proved part. Any stream, seekable or not, at any position, in any state, whose text does not break off behind a backslash; the types, modes
and policies of C83. `stream >> jsonImporter(value)` comes to an end, and does nothing undefined on the way: unlike from a
string (C09), numbers out of range included. Missing: arrays and tuples (C40); containers of pointers and texts that break
off behind a backslash, for which the claim is false, see `C107_false_pointers` and `C107_false`. -/
theorem C107_ends_partial (env : Env) (hT : SoundTypes env true false) (cfg : Cfg) (pol : Policy) (conv : Bool) (ty : Ty) (old : Val) (i : IStr)
    (hi : i.pos ≤ i.data.length) (hw : i.data.getLast? ≠ some 0x5C) (hS : Sound env true false ty) (hO : Shaped env ty old) :
    (jsonStreamExtract env cfg pol conv ty old i).fate ≠ .ub ∧ jsonStreamImport env cfg conv ty old i ≠ .ub :=
  ⟨SEnds.extract_ends hT cfg pol conv ty old hi hw hS hO, SEnds.import_ends hT cfg conv ty old hi hw hS hO⟩

/-- Any bytes that do not end in a backslash, from a fresh stream that can tell its position or not. -/
example (cfg : Cfg) (pol : Policy) (conv : Bool) (t : Bytes) (hw : t.getLast? ≠ some 0x5C) (seekable : Bool) :
    (jsonStreamExtract (env83 true) cfg pol conv (.umap (.named 4)) (.dict []) (IStr.ofBytes t seekable)).fate ≠ .ub :=
  (C107_ends_partial _ (env83_sound true) cfg pol conv _ _ _ (Nat.zero_le _) hw (by simp [Sound, env83]) (by simp [Shaped])).1

/-- A cut string that does not end in a backslash, a number out of range, and a stream that has failed already. -/
example (cfg : Cfg) (pol : Policy) (conv : Bool) :
    (jsonStreamExtract (env83 true) cfg pol conv (.umap (.named 4)) (.dict []) (IStr.ofBytes b!"{\"a\\\"")).fate ≠ .ub ∧
    (jsonStreamExtract (env83 true) cfg pol conv Samples.int32 (.int 0) (IStr.ofBytes b!"99999999999999999999")).fate ≠ .ub ∧
    (jsonStreamExtract (env83 true) cfg pol conv .str (.str []) ⟨b!"\"a\"", 1, true, true, true⟩).fate ≠ .ub :=
  ⟨(C107_ends_partial _ (env83_sound true) cfg pol conv _ _ _ (Nat.zero_le _) (by decide) (by simp [Sound, env83]) (by simp [Shaped])).1,
   (C107_ends_partial _ (env83_sound true) cfg pol conv _ _ _ (Nat.zero_le _) (by decide) (by simp [Sound, Samples.int32]) (by simp [Shaped, Samples.int32])).1,
   (C107_ends_partial _ (env83_sound true) cfg pol conv _ _ _ (by decide) (by decide) (by simp [Sound]) (by simp [Shaped])).1⟩

/-! ### a text that breaks off behind a backslash -/

/-- The lexer in front of the string. -/
def lex107 (conv : Bool) : LexerS :=
  { inp := IStr.ofBytes b!"\"\\\"\\", buffer := [], lastToken := some .string, lastBool := false, lastNull := false, convertBackSlash := conv }

theorem getStringInto_hang {l : LexerS} {i j : IStr} {v : Bytes} {b : Bool} (h1 : l.inp.get = (0x22, i)) (h2 : i.getline 0x22 = (some v, b, j)) (h3 : 0 < v.length)
    (h4 : checkEscape v = true) (h5 : LexerS.readMore (j.data.length + 1) j [] v = .ub) : l.getStringInto = .ub := by
  unfold LexerS.getStringInto
  rw [h1]
  dsimp only
  rw [if_neg (by decide), h2]
  dsimp only [Option.getD_some]
  rw [if_pos ⟨h3, h4⟩, h5]
  rfl

/-- C107 is false for a text that breaks off behind a backslash: `"\"\` read into a string. Whatever the number of rounds of the loop
over the pieces between quotes: it goes on. -/
theorem C107_false (env : Env) (cfg : Cfg) (pol : Policy) (conv : Bool) (old : Val) :
    (∀ rounds, LexerS.readMore rounds ⟨b!"\"\\\"\\", 3, false, false, true⟩ [] b!"\\" = .ub) ∧
    (jsonStreamExtract env cfg pol conv .str old (IStr.ofBytes b!"\"\\\"\\")).fate = .ub := by
  have hr : ∀ rounds, LexerS.readMore rounds ⟨b!"\"\\\"\\", 3, false, false, true⟩ [] b!"\\" = .ub := by
    obtain ⟨⟨i, v, h1, h2, -, -, h3⟩, -⟩ := C60_false_hang (JsonS.ofStream (IStr.ofBytes [0x22, 0x5C, 0x22, 0x5C]) conv).lex rfl
    have hi : i = ⟨[0x22, 0x5C, 0x22, 0x5C], 1, false, false, true⟩ := by
      have : ((0x22 : Int), (⟨[0x22, 0x5C, 0x22, 0x5C], 1, false, false, true⟩ : IStr)) = (0x22, i) := h1
      exact (congrArg Prod.snd this).symm
    subst hi
    have hv : v = [0x5C] := by
      have : some [0x5C] = some v := h2
      exact (Option.some.inj this).symm
    subst hv
    exact h3
  refine ⟨hr, ?_⟩
  have hs : JsonS.ops.getStr ⟨lex107 conv, ⟨.Done, .Done, [], true⟩⟩ = .ub := by
    show ((lex107 conv).getStringInto >>= _ : Res (Bytes × JsonS)) = _
    rw [getStringInto_hang (i := ⟨b!"\"\\\"\\", 1, false, false, true⟩) (j := ⟨b!"\"\\\"\\", 3, false, false, true⟩) (v := b!"\\") (b := true)
      (show (IStr.ofBytes b!"\"\\\"\\").get = _ by decide) (by decide) (by decide) (by decide) (hr _)]
    rfl
  unfold jsonStreamExtract extract
  rw [show (PI.init (JsonS.ofStream (IStr.ofBytes b!"\"\\\"\\") conv)).getToken JsonS.inOps.ops = _ from SEnds.start_token _ conv]
  simp only [Res.ok_bind, ne_eq, not_true_eq_false, if_false]
  rw [deser, show JsonS.inOps.ops = JsonS.ops from rfl, show (PI.init (⟨(JsonS.ofStream (IStr.ofBytes b!"\"\\\"\\") conv).lex, ⟨.Done, .Init, [], true⟩⟩ : JsonS)).getToken JsonS.ops =
    .ok (.Value, PI.init ⟨lex107 conv, ⟨.Done, .Done, [], true⟩⟩) from rfl]
  simp only [Res.ok_bind]
  rw [show JsonS.ops.getStr (PI.init (⟨lex107 conv, ⟨.Done, .Done, [], true⟩⟩ : JsonS)).inner = .ub from hs]
  rfl

/-! ### a vector of pointers -/

/-- The parser behind `[null null`, after `n` null pointers. -/
def loop107 (i : IStr) : Nat → IStr
  | 0 => i
  | n + 1 => (loop107 i n).ignore 4

def lexer107 (conv : Bool) (i : IStr) (tok : Lexeme) (null : Bool) : LexerS :=
  { inp := i, buffer := [], lastToken := some tok, lastBool := false, lastNull := null, convertBackSlash := conv }

theorem stuck107 (conv : Bool) (i : IStr) :
    SEnds.Stuck JsonS.ops (fun n => PI.init ⟨lexer107 conv (loop107 i n) .null_ true, ⟨.ValueA, .Error, [.Done], true⟩⟩) where
  token _ := rfl
  push _ := rfl
  null _ := rfl
  skip _ := rfl

/-- C107 is false for containers of pointers. `[null null`, read from a stream into a `std::vector<std::unique_ptr<T>>`, does not come to
an end: for every `n` the import gets to the point where the vector holds `n + 1` null pointers and the loop goes on. -/
theorem C107_false_pointers (env : Env) (cfg : Cfg) (pol : Policy) (conv : Bool) (t : Ty) :
    (∀ n : Nat, ∃ p, deser JsonS.ops env cfg (.vec (.uptr t)) (.list []) (PI.init ⟨(JsonS.ofStream (IStr.ofBytes b!"[null null") conv).lex, ⟨.Done, .Init, [], true⟩⟩) =
      deserVec JsonS.ops env cfg .back (.uptr t) (List.replicate (n + 1) .null) p) ∧
    (jsonStreamExtract env cfg pol conv (.vec (.uptr t)) (.list []) (IStr.ofBytes b!"[null null")).fate = .ub := by
  have h0 : deser JsonS.ops env cfg (.vec (.uptr t)) (.list []) (PI.init ⟨(JsonS.ofStream (IStr.ofBytes b!"[null null") conv).lex, ⟨.Done, .Init, [], true⟩⟩) =
      deserVec JsonS.ops env cfg .back (.uptr t) [.null]
        (PI.init ⟨lexer107 conv (loop107 ⟨b!"[null null", 6, false, false, true⟩ 0) .null_ true, ⟨.ValueA, .Error, [.Done], true⟩⟩) := by
    unfold Ty.vec
    rw [deser, show (PI.init (⟨(JsonS.ofStream (IStr.ofBytes b!"[null null") conv).lex, ⟨.Done, .Init, [], true⟩⟩ : JsonS)).getToken JsonS.ops =
      .ok (.ArrayStart, PI.init ⟨lexer107 conv ⟨b!"[null null", 1, false, false, true⟩ .lbracket false, ⟨.ValueA, .OpenA, [.Done], true⟩⟩) from rfl]
    simp only [Res.ok_bind]
    rw [if_neg (by decide), deserVec, show (PI.init (⟨lexer107 conv ⟨b!"[null null", 1, false, false, true⟩ .lbracket false, ⟨.ValueA, .OpenA, [.Done], true⟩⟩ : JsonS)).getToken JsonS.ops =
      .ok (.Value, PI.init ⟨lexer107 conv ⟨b!"[null null", 1, false, false, true⟩ .null_ true, ⟨.ValueA, .ValueA, [.Done], true⟩⟩) from rfl]
    simp only [Res.ok_bind]
    rw [if_neg (by decide), deser, show ((PI.init (⟨lexer107 conv ⟨b!"[null null", 1, false, false, true⟩ .null_ true, ⟨.ValueA, .ValueA, [.Done], true⟩⟩ : JsonS)).pushBackToken .Value).getToken JsonS.ops =
      .ok (.Value, PI.init ⟨lexer107 conv ⟨b!"[null null", 1, false, false, true⟩ .null_ true, ⟨.ValueA, .ValueA, [.Done], true⟩⟩) from rfl]
    simp only [Res.ok_bind]
    rw [if_pos (by rfl), show JsonS.ops.ignoreData (PI.init (⟨lexer107 conv ⟨b!"[null null", 1, false, false, true⟩ .null_ true, ⟨.ValueA, .ValueA, [.Done], true⟩⟩ : JsonS)).inner =
      .ok ⟨lexer107 conv ⟨b!"[null null", 5, false, false, true⟩ .null_ true, ⟨.ValueA, .ValueA, [.Done], true⟩⟩ from rfl]
    simp only [Res.ok_bind]
    show deserVec JsonS.ops env cfg .back (.uptr t) [.null] (PI.init ⟨lexer107 conv ⟨b!"[null null", 5, false, false, true⟩ .null_ true, ⟨.ValueA, .ValueA, [.Done], true⟩⟩) = _
    have hg := (stuck107 conv ⟨b!"[null null", 6, false, false, true⟩).token 0
    rw [deserVec, show (PI.init (⟨lexer107 conv ⟨b!"[null null", 5, false, false, true⟩ .null_ true, ⟨.ValueA, .ValueA, [.Done], true⟩⟩ : JsonS)).getToken JsonS.ops =
      .ok (.Error, PI.init ⟨lexer107 conv (loop107 ⟨b!"[null null", 6, false, false, true⟩ 0) .null_ true, ⟨.ValueA, .Error, [.Done], true⟩⟩) from rfl]
    conv => rhs; rw [deserVec, hg]
  have H := stuck107 conv ⟨b!"[null null", 6, false, false, true⟩
  refine ⟨fun n => ?_, ?_⟩
  · suffices h : ∀ n : Nat, deser JsonS.ops env cfg (.vec (.uptr t)) (.list []) (PI.init ⟨(JsonS.ofStream (IStr.ofBytes b!"[null null") conv).lex, ⟨.Done, .Init, [], true⟩⟩) =
        deserVec JsonS.ops env cfg .back (.uptr t) (List.replicate (n + 1) .null)
          (PI.init ⟨lexer107 conv (loop107 ⟨b!"[null null", 6, false, false, true⟩ n) .null_ true, ⟨.ValueA, .Error, [.Done], true⟩⟩) from ⟨_, h n⟩
    intro n
    induction n with
    | zero => exact h0
    | succ n ih =>
      rw [ih, H.round, ← List.replicate_succ' (n := n + 1)]
  · unfold jsonStreamExtract extract
    rw [show (PI.init (JsonS.ofStream (IStr.ofBytes b!"[null null") conv)).getToken JsonS.inOps.ops = _ from SEnds.start_token _ conv]
    simp only [Res.ok_bind, ne_eq, not_true_eq_false, if_false]
    rw [show JsonS.inOps.ops = JsonS.ops from rfl, h0, H.ub]

end Thors.Props
