import Verif.Proofs.BsonStrEnds
import Verif.Proofs.BsonExport
import Verif.Proofs.BsonStream
import Verif.Props.YamlEnds
/-
C106: importing BSON comes to an end and stays in bounds.
-/
namespace Thors.Props
open Thors Thors.Spec Lean.Order

/-- The full property: from a string and from a stream, into every type. -/
def C106_full (env : Env) (cfg : Cfg) : Prop :=
  ∀ ty old, Shaped env ty old → (∀ t, bsonImport env cfg ty old t ≠ .ub) ∧ ∀ i, bsonStreamImport env cfg ty old i ≠ .ub

/-- C106 for streams, into every sound type: whatever the bytes and the state of the stream are, the import comes to an end and is defined, except that
a variable that could not be read, a `bool` byte that is neither 0 nor 1 and a sum of sizes that overflows may be anything (`j`). Missing: arrays with a fixed
number of elements, for which it is false, and strings in the mode that skips members (next theorem). -/
theorem C106_stream_ends_partial (j : BIndet) (env : Env) (hT : SoundTypes env true true) (cfg : Cfg) (ty : Ty) (old : Val) (i : IStr)
    (hS : Sound env true true ty) (hO : Shaped env ty old) : bsonStreamImportJ j env cfg ty old i ≠ .ub := by
  unfold bsonStreamImportJ
  exact Res.bind_ne_ub (BEnds.import_ends j hT cfg _ ty old i hS hO) (by simp)

/-- C106 for strings, in the modes `Strict` and `Exact`. Missing: the mode `Weak`, in which it is false. -/
theorem C106_string_ends_partial (j : BStrIndet) (env : Env) (hT : SoundTypes env true true) (cfg : Cfg) (ty : Ty) (old : Val) (t : Bytes)
    (hm : cfg.strict = .Strict ∨ cfg.strict = .Exact) (hS : Sound env true true ty) (hO : Shaped env ty old) : bsonImportJ j env cfg ty old t ≠ .ub := by
  unfold bsonImportJ
  exact Res.bind_ne_ub (BStrEnds.import_ends j hT cfg _ ty old t (by rcases hm with e | e <;> rw [e] <;> simp) hS hO) (by simp)

/-- If nothing is indeterminate this is the import. -/
theorem C106_string_same (j : BStrIndet) (env : Env) (cfg : Cfg) (ty : Ty) (old : Val) (t : Bytes) (h : bsonImport env cfg ty old t ≠ .ub) :
    bsonImportJ j env cfg ty old t = bsonImport env cfg ty old t := by
  have hl : Low (bsonImport env cfg ty old t) (bsonImportJ j env cfg ty old t) :=
    (BEnds.import_low (BStrEnds.low_ops j) env cfg ty old _).bind fun _ => .same _
  exact (hl.resolve_left h).symm

/-- If nothing is indeterminate this is the import. -/
theorem C106_same (j : BIndet) (env : Env) (cfg : Cfg) (ty : Ty) (old : Val) (i : IStr) (h : bsonStreamImport env cfg ty old i ≠ .ub) :
    bsonStreamImportJ j env cfg ty old i = bsonStreamImport env cfg ty old i := by
  have hl : Low (bsonStreamImport env cfg ty old i) (bsonStreamImportJ j env cfg ty old i) :=
    (BEnds.import_low (BEnds.low_ops j) env cfg ty old _).bind fun _ => .same _
  exact (hl.resolve_left h).symm

/-- non-vacuity: any stream can be read into a tree of objects, polymorphic pointers and variants included (the types of C91). -/
example (j : BIndet) (cfg : Cfg) (i : IStr) : bsonStreamImportJ j env91 cfg (.named 1) (env91.dflt 1) i ≠ .ub :=
  C106_stream_ends_partial j _ env91_sound cfg _ _ i (by simp [Sound, env91]) (env91_sound.dflt 1)

/-- Any string as well, if members that the class does not have are refused. -/
example (j : BStrIndet) (mk t : Bytes) : bsonImportJ j env91 ⟨.Strict, mk⟩ (.named 1) (env91.dflt 1) t ≠ .ub :=
  C106_string_ends_partial j _ env91_sound _ _ _ t (.inl rfl) (by simp [Sound, env91]) (env91_sound.dflt 1)

/-! ### where it is false -/

/-- `struct Empty {};` -/
def env106 : Env where
  defs _ := .cls ⟨.mk [] [] none, b!"Empty", none⟩
  dflt _ := .obj [] []
  registry := []
  derives _ _ := false

/-- A document with a string `a` of the size `n`. -/
def doc106 (n : Bytes) : Bytes := [0x20, 0x00, 0x00, 0x00, 0x02, 0x61, 0x00] ++ n

/-- The parser behind the value of `a`, of the size -7: it is in front of `a`. -/
def front106 : BsonP := ⟨⟨doc106 [0xF9, 0xFF, 0xFF, 0xFF], 4, true⟩, [.Map], [28], [32], .Value, b!"a", 0x02, true⟩

/-- The parser behind the key. -/
def key106 : BsonP := ⟨⟨doc106 [0xF9, 0xFF, 0xFF, 0xFF], 7, true⟩, [.Map], [25], [32], .Value, b!"a", 0x02, false⟩

/-- One round of the loop over the members: the key is read, the value is skipped, and the parser is where it was. -/
theorem C106_round : front106.getNextToken = .ok (.Key, key106) ∧ key106.getKey = .ok (b!"a", key106) ∧ ignoreTheValue BsonP.ops key106 = .ok front106 := by
  refine ⟨rfl, rfl, ?_⟩
  rw [ignoreTheValue]
  rfl

/-- A loop over the members that comes back to the same state goes on for ever. -/
theorem members_loop {σ : Type} (o : POps σ) (env : Env) (cfg : Cfg) (hw : cfg.strict = .Weak) (d : StructDef) (k : Bytes) (s s' : σ) (hk : d.find k = none)
    (h1 : o.next s = .ok (.Key, s')) (h2 : o.getKey s' = .ok (k, s')) (h3 : ignoreTheValue o s' = .ok s) :
    ∀ found old, deserMembers o env cfg d found old (PI.init s) = .ub := by
  refine fun found old => Low.ub ((deser.mutual_fixpoint_induct o env cfg (fun _ => True) (fun _ => True)
    (fun f => ∀ found old, Low (f d found old (PI.init s)) .ub) (fun _ => True) (fun _ => True) (fun _ => True) ?_ ?_ ?_ ?_ ?_ ?_ ?_ ?_ ?_ ?_ ?_ ?_).2.2.1 found old)
  · exact admissible_const_true
  · exact admissible_const_true
  · exact admissible_pi _ fun found => admissible_pi _ fun old =>
      admissible_apply (fun (_ : StructDef) (f : List Bytes → Val → PI σ → Res (Val × PI σ)) => Low (f found old (PI.init s)) _) _
        (admissible_apply (fun (_ : List Bytes) (f : Val → PI σ → Res (Val × PI σ)) => Low (f old (PI.init s)) _) _
          (admissible_apply (fun (_ : Val) (f : PI σ → Res (Val × PI σ)) => Low (f (PI.init s)) _) _
            (admissible_apply (fun (_ : PI σ) (r : Res (Val × PI σ)) => Low r _) _ (Low.admissible _))))
  · exact admissible_const_true
  · exact admissible_const_true
  · exact admissible_const_true
  all_goals try (intros; trivial)
  · intro fD fM hD hM found old
    have e : (PI.init s).getToken o = .ok (.Key, PI.init s') := by
      unfold PI.getToken
      rw [if_neg (by simp [PI.init]), if_neg (by simp [PI.init]), show (PI.init s).inner = s from rfl, h1]
      rfl
    have e2 : (PI.init s').lift (o.getKey (PI.init s').inner) = .ok (k, PI.init s') := by
      unfold PI.lift
      rw [show (PI.init s').inner = s' from rfl, h2]
      rfl
    have e3 : (PI.init s').ignoreValue o cfg.strict = .ok (PI.init s) := by
      unfold PI.ignoreValue
      rw [if_neg (by simp [hw]), show (PI.init s').inner = s' from rfl, h3]
      rfl
    dsimp only
    rw [e]
    simp only [Res.ok_bind, reduceCtorEq, if_false]
    rw [e2]
    simp only [Res.ok_bind, hk]
    rw [e3]
    exact hM _ _

/-- The beginning of an import into a class. -/
theorem import_class {σ : Type} (o : POps σ) (env : Env) (cfg : Cfg) (i : Nat) (d : ClassDef) (old : Val) (s s1 s2 : σ) (hd : env.defs i = .cls d)
    (h1 : o.next s = .ok (.DocStart, s1)) (h2 : o.next s1 = .ok (.MapStart, s2)) (h3 : deserMembers o env cfg d.traits [] old (PI.init s2) = .ub) :
    importValue o env cfg (.named i) old (PI.init s) = .ub := by
  unfold importValue PI.getToken
  rw [if_neg (by simp [PI.init]), if_neg (by simp [PI.init]), show (PI.init s).inner = s from rfl, h1]
  simp only [Res.ok_bind, Res.pure_eq]
  rw [if_neg (by simp), deser, hd]
  dsimp only
  rw [deserClass]
  unfold PI.getToken
  rw [if_neg (by simp [PI.init]), if_neg (by simp [PI.init]), h2]
  simp only [Res.ok_bind, Res.pure_eq]
  rw [if_neg (by simp)]
  show (deserMembers o env cfg d.traits [] old (PI.init s2) >>= _) = _
  rw [h3]
  rfl

/-- The first member, which is not one of the class. -/
theorem members_first {σ : Type} (o : POps σ) (env : Env) (cfg : Cfg) (hw : cfg.strict = .Weak) (d : StructDef) (found : List Bytes) (old : Val) (k : Bytes) (s s' s'' : σ)
    (hk : d.find k = none) (h1 : o.next s = .ok (.Key, s')) (h2 : o.getKey s' = .ok (k, s')) (h3 : ignoreTheValue o s' = .ok s'') :
    deserMembers o env cfg d found old (PI.init s) = deserMembers o env cfg d found old (PI.init s'') := by
  conv => lhs; rw [deserMembers]
  have e : (PI.init s).getToken o = .ok (.Key, PI.init s') := by
    unfold PI.getToken
    rw [if_neg (by simp [PI.init]), if_neg (by simp [PI.init]), show (PI.init s).inner = s from rfl, h1]
    rfl
  have e2 : (PI.init s').lift (o.getKey (PI.init s').inner) = .ok (k, PI.init s') := by
    unfold PI.lift
    rw [show (PI.init s').inner = s' from rfl, h2]
    rfl
  have e3 : (PI.init s').ignoreValue o cfg.strict = .ok (PI.init s'') := by
    unfold PI.ignoreValue
    rw [if_neg (by simp [hw]), show (PI.init s').inner = s' from rfl, h3]
    rfl
  rw [e]
  simp only [Res.ok_bind, reduceCtorEq, if_false]
  rw [e2]
  simp only [Res.ok_bind, hk]
  rw [e3]
  rfl

theorem members_ub {σ : Type} (o : POps σ) (env : Env) (cfg : Cfg) (d : StructDef) (found : List Bytes) (old : Val) (s : σ)
    (h : o.next s = .ub) : deserMembers o env cfg d found old (PI.init s) = .ub := by
  rw [deserMembers]
  unfold PI.getToken
  rw [if_neg (by simp [PI.init]), if_neg (by simp [PI.init]), show (PI.init s).inner = s from rfl, h]
  rfl

/-- The parser at the first key. -/
def start106 (n : Bytes) : BsonP := ⟨⟨doc106 n, 4, true⟩, [.Map], [28], [32], .Key, [], 0x00, false⟩

/-- C106 is false for strings in the mode that skips members. A string of the size -7, which is skipped by going back: the import does not come to an end.
A string of the size 255 in a document of 11 bytes: the bytes behind the end are read. From a stream, a size that is not there is indeterminate. -/
theorem C106_false (mk : Bytes) :
    ¬ C106_full env106 ⟨.Weak, mk⟩ ∧
    bsonImport env106 ⟨.Weak, mk⟩ (.named 0) (.obj [] []) (doc106 [0xF9, 0xFF, 0xFF, 0xFF]) = .ub ∧
    bsonImport env106 ⟨.Weak, mk⟩ (.named 0) (.obj [] []) (doc106 [0xFF, 0x00, 0x00, 0x00]) = .ub ∧
    bsonStreamImport env106 ⟨.Weak, mk⟩ (.named 0) (.obj [] []) (IStr.ofBytes [0x20, 0x00]) = .ub := by
  have hf : (StructDef.mk [] [] none).find b!"a" = none := by rfl
  have e1 : bsonImport env106 ⟨.Weak, mk⟩ (.named 0) (.obj [] []) (doc106 [0xF9, 0xFF, 0xFF, 0xFF]) = .ub := by
    unfold bsonImport
    rw [import_class BsonP.ops env106 ⟨.Weak, mk⟩ 0 ⟨.mk [] [] none, b!"Empty", none⟩ (.obj [] []) _
      ⟨⟨doc106 [0xF9, 0xFF, 0xFF, 0xFF], 0, true⟩, [.Map], [], [], .MapStart, [], 0x00, false⟩ (start106 [0xF9, 0xFF, 0xFF, 0xFF]) rfl rfl rfl]
    · rfl
    · refine (members_first BsonP.ops _ _ rfl _ _ _ b!"a" _ key106 front106 hf rfl rfl C106_round.2.2).trans ?_
      exact members_loop BsonP.ops _ _ rfl _ b!"a" front106 key106 hf C106_round.1 C106_round.2.1 C106_round.2.2 _ _
  have e2 : bsonImport env106 ⟨.Weak, mk⟩ (.named 0) (.obj [] []) (doc106 [0xFF, 0x00, 0x00, 0x00]) = .ub := by
    unfold bsonImport
    rw [import_class BsonP.ops env106 ⟨.Weak, mk⟩ 0 ⟨.mk [] [] none, b!"Empty", none⟩ (.obj [] []) _
      ⟨⟨doc106 [0xFF, 0x00, 0x00, 0x00], 0, true⟩, [.Map], [], [], .MapStart, [], 0x00, false⟩ (start106 [0xFF, 0x00, 0x00, 0x00]) rfl rfl rfl]
    · rfl
    · refine (members_first BsonP.ops _ _ rfl _ _ _ b!"a" _ ⟨⟨doc106 [0xFF, 0x00, 0x00, 0x00], 7, true⟩, [.Map], [25], [32], .Value, b!"a", 0x02, false⟩
        ⟨⟨doc106 [0xFF, 0x00, 0x00, 0x00], 266, false⟩, [.Map], [-234], [32], .Value, b!"a", 0x02, true⟩ hf rfl rfl ?_).trans ?_
      · rw [ignoreTheValue]
        rfl
      · exact members_ub _ _ _ _ _ _ _ rfl
  have e3 : bsonStreamImport env106 ⟨.Weak, mk⟩ (.named 0) (.obj [] []) (IStr.ofBytes [0x20, 0x00]) = .ub := by
    unfold bsonStreamImport importValue
    rw [show (PI.init (BsonS.ofStream (bsonBase env106 (.named 0)) (IStr.ofBytes [0x20, 0x00]))).getToken BsonS.ops =
      .ok (.DocStart, PI.init ⟨IStr.ofBytes [0x20, 0x00], [.Map], [], [], .MapStart, [], 0x00, false⟩) from rfl]
    simp only [Res.ok_bind]
    rw [if_neg (by simp), deser]
    show ((deserClass BsonS.ops env106 ⟨.Weak, mk⟩ (.mk [] [] none) (.obj [] []) (PI.init ⟨IStr.ofBytes [0x20, 0x00], [.Map], [], [], .MapStart, [], 0x00, false⟩) >>= _) >>= _) = _
    rw [deserClass, show (PI.init (⟨IStr.ofBytes [0x20, 0x00], [.Map], [], [], .MapStart, [], 0x00, false⟩ : BsonS)).getToken BsonS.ops = .ub from rfl]
    rfl
  exact ⟨fun h => (h (.named 0) (.obj [] []) (by simp [Shaped, env106, ShapedOwn, ShapedParents])).1 _ e1, e1, e2, e3⟩

end Thors.Props
