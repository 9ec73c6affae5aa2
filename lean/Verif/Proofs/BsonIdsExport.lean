import Verif.Proofs.BsonIdsPrint
import Verif.Props.Export
/-
Whole documents with an `idStore`, projections, ranges.
-/
namespace Thors
open Spec StrIn

namespace BIds

/-- One pass over a value at the top level. -/
theorem pass_doc (fresh : Nat → ObjectID) (proj : Bool) (env : Env) (mk : Bytes) (info : BPrint.SizeInfo) (ty : Ty) (v : Val) (d : Doc)
    (hd : docOf env mk ty v = .ok d) (hk : SizeKnown env info false ty v) (ha : AllScalars (Plain proj) d) (base : BCont)
    (hb : base = BsonP.rootKind (btree d)) (s : St) (hs : ∃ key, s.st = ⟨[], [], key⟩) :
    ∃ ws key, pass env mk info fresh proj base ty v s = .ok (ws, ⟨⟨[], [], key⟩, s.made + count s.store.isSome [] d,
        s.store.map (· ++ (List.range' s.made (count s.store.isSome [] d)).map fresh)⟩) ∧
      bytesOf ws = bdoc (tree s.store.isSome proj fresh [] s.made d) ∧ Chars ws := by
  obtain ⟨key, hs⟩ := hs
  have h := ser_doc fresh proj s.store.isSome env mk info v false ty d hd hk ha s topPre ⟨[], [], key⟩ rfl (by rw [hs]; exact heads_top key)
  rw [hs] at h
  obtain ⟨ws, key', e, hw, hc⟩ := h
  refine ⟨ws ++ BPrint.closeDoc base, key', by rw [pass, e]; rfl, ?_, hc.append ?_⟩
  · rw [bytesOf_append, hw, hb]
    cases d with
    | scalar a =>
      simp only [btree, BsonP.rootKind, BPrint.closeDoc, if_true, tree, elemBytes, btype, sizeArg, topPre, bpayload, bdoc, framed]
      have : 4 + 1 + 2 + (scalar proj a).payload.length + 1 = 4 + ((scalar proj a).code :: [0x30, 0x00] ++ (scalar proj a).payload).length + 1 := by simp; omega
      rw [this]
      simp [bytesOf, Write.bytesIn, bytesIn]
    | arr ts => simp [btree, BsonP.rootKind, BPrint.closeDoc, tree, elemBytes, btype, sizeArg, topPre, bdoc, bytesOf, bytesIn]
    | obj ms => simp [btree, BsonP.rootKind, BPrint.closeDoc, tree, elemBytes, btype, sizeArg, topPre, bdoc, bytesOf, bytesIn]
  · unfold BPrint.closeDoc; split
    · exact Chars.one _
    · exact Chars.nil

/-- The tree that is exported. -/
def idTree (fresh : Nat → ObjectID) (store : Option (List ObjectID)) (d : Doc) : BTree := if store.isSome then withIds fresh (btree d) else btree d

/-- The number of identifiers used. -/
def idCount (store : Option (List ObjectID)) (d : Doc) : Nat := if store.isSome then idsNeeded (btree d) else 0

theorem tree_idTree (fresh : Nat → ObjectID) (store : Option (List ObjectID)) (m : Nat) (d : Doc) :
    tree store.isSome false fresh [] m d = idTree (fun i => fresh (m + i)) store d ∧ count store.isSome [] d = idCount store d := by
  unfold idTree idCount
  cases store with
  | none => exact ⟨tree_off fresh false d [] m (.inl rfl), count_off false d [] (.inl rfl)⟩
  | some l => exact tree_withIds fresh d m

theorem plain_of {d : Doc} (ha : AllScalars plainAtom d) : AllScalars (Plain false) d := by
  exact AllScalars.imp (fun a h => .inr h) d ha

mutual
theorem plain_true : ∀ d : Doc, AllScalars (Plain true) d
  | .scalar a => .inl rfl
  | .arr ts => plain_true_elems ts
  | .obj ms => plain_true_members ms
theorem plain_true_elems : ∀ ts : List Doc, AllScalars.elems (Plain true) ts
  | [] => trivial
  | t :: ts => ⟨plain_true t, plain_true_elems ts⟩
theorem plain_true_members : ∀ ms : List (Bytes × Doc), AllScalars.members (Plain true) ms
  | [] => trivial
  | (_, t) :: ms => ⟨plain_true t, plain_true_members ms⟩
end

/-- The two passes over a string, with different characters of the same length. -/
theorem two_passes (w1 w2 : List Write) (h1 : Chars w1) (h2 : Chars w2) (hl : (bytesOf w1).length = (bytesOf w2).length) (old : Bytes) :
    ∃ s1 s2 s3 : StrOut, (StrOut.ofString old true).preflightSize.putAll w1 = .ok s1 ∧ s1.reserveSize.putAll w2 = .ok s2 ∧
      s2.finalizePrint = .ok s3 ∧ s3.data = bytesOf w2 := by
  have hneed : ∀ ws : List Write, Chars ws → (ws.map need).sum = (bytesOf ws).length ∧ (ws.map (counted true)).sum = (bytesOf ws).length ∧
      bytesIn stringText ws = bytesOf ws := by
    intro ws
    induction ws with
    | nil => intro _; exact ⟨rfl, rfl, rfl⟩
    | cons w ws ih =>
      intro h
      obtain ⟨b, rfl⟩ := h w (by simp)
      obtain ⟨i1, i2, i3⟩ := ih (fun w hw => h w (by simp [hw]))
      have hb : bytesOf (.chars b :: ws) = b ++ bytesOf ws := rfl
      refine ⟨?_, ?_, ?_⟩
      · rw [List.map_cons, List.sum_cons, i1, hb, List.length_append]; rfl
      · rw [List.map_cons, List.sum_cons, i2, hb, List.length_append]; rfl
      · rw [hb, ← i3]; rfl
  obtain ⟨a1, a2, a3⟩ := hneed w1 h1
  obtain ⟨b1, b2, b3⟩ := hneed w2 h2
  have e1 := pass1 w1 ((StrOut.ofString old true).preflightSize) rfl
  simp only [StrOut.ofString, StrOut.preflightSize, Nat.zero_add] at e1
  obtain ⟨data, e2, l2, t2⟩ := pass2 w2
    ({ data := old, current := none, calcSize := (w1.map (counted true)).sum, preFlight := true, estimate := true } : StrOut).reserveSize
    0 rfl rfl (by simp [StrOut.reserveSize]; omega)
  refine ⟨_, _, _, e1, e2, rfl, ?_⟩
  simp only [Nat.zero_add] at t2 ⊢
  have : (bytesIn stringText w2).length ≤ data.length := by rw [l2, b3]; simp [StrOut.reserveSize]; omega
  rw [t2, Nat.sub_eq_zero_of_le this, b3]
  simp

end BIds

open BIds

theorem bsonExportIds_doc (env : Env) (info : BPrint.SizeInfo) (mk : Bytes) (fresh : Nat → ObjectID) (ty : Ty) (v : Val) (store : Option (List ObjectID)) (d : Doc)
    (hd : docOf env mk ty v = .ok d) (hk : SizeKnown env info false ty v) (ha : AllScalars plainAtom d) (ht : TopLevel env ty v) :
    bsonExportIds env info mk fresh ty v store =
      .ok (bdoc (idTree fresh store d), store.map (· ++ (List.range (idCount store d)).map fresh)) := by
  obtain ⟨hb, hr⟩ := base_root env mk ty v d hd ht
  obtain ⟨ws, key, e, hw, -⟩ := pass_doc fresh false env mk info ty v d hd hk (plain_of ha) _ hb (init store) ⟨[], rfl⟩
  rw [bsonExportIds, hr, e]
  have h2 := tree_idTree fresh store 0 d
  simp only [init, Nat.zero_add] at hw h2 ⊢
  simp only [Res.ok_bind, hw, h2.1, h2.2, Bool.false_eq_true, if_false, Res.pure_eq, List.range_eq_range']

theorem bsonExportIdsString_doc (env : Env) (info : BPrint.SizeInfo) (mk : Bytes) (fresh : Nat → ObjectID) (ty : Ty) (v : Val) (store : Option (List ObjectID))
    (old : Bytes) (d : Doc) (hd : docOf env mk ty v = .ok d) (hk : SizeKnown env info false ty v) (ha : AllScalars plainAtom d) (ht : TopLevel env ty v) :
    bsonExportIdsString env info mk fresh ty v store old =
      .ok (bdoc (idTree (fun i => fresh (idCount store d + i)) store d), store.map (· ++ (List.range (2 * idCount store d)).map fresh)) := by
  obtain ⟨hb, hr⟩ := base_root env mk ty v d hd ht
  obtain ⟨w1, key, e1, hw1, hc1⟩ := pass_doc fresh false env mk info ty v d hd hk (plain_of ha) _ hb (init store) ⟨[], rfl⟩
  obtain ⟨w2, key2, e2, hw2, hc2⟩ := pass_doc fresh false env mk info ty v d hd hk (plain_of ha) _ hb
    ⟨⟨[], [], key⟩, (init store).made + count (init store).store.isSome [] d,
        (init store).store.map (· ++ (List.range' (init store).made (count (init store).store.isSome [] d)).map fresh)⟩ ⟨key, rfl⟩
  have h1 := tree_idTree fresh store 0 d
  have h2 := tree_idTree fresh store (idCount store d) d
  simp only [init, Nat.zero_add, Option.isSome_map, h1.2, h2.1] at e1 hw1 e2 hw2
  have hl : (bytesOf w1).length = (bytesOf w2).length := by
    rw [hw1, hw2, ← h2.1]
    obtain ⟨a, -, hn⟩ := BIds.psize_doc store.isSome false fresh env mk info v [] false ty d hd hk
    cases d with
    | scalar a => rfl
    | arr ts => exact (hn 0).trans (hn _).symm
    | obj ms => exact (hn 0).trans (hn _).symm
  obtain ⟨o1, o2, o3, f1, f2, f3, f4⟩ := two_passes w1 w2 hc1 hc2 hl old
  rw [bsonExportIdsString, hr]
  simp only [init, e1, e2, f1, f2, f3, f4, Res.ok_bind, hw2, Bool.false_eq_true, if_false, Res.pure_eq]
  congr 2
  cases store with
  | none => rfl
  | some l => simp [List.range_eq_range', Nat.two_mul, ← List.range'_append_1]

theorem bsonExportProjection_doc (env : Env) (info : BPrint.SizeInfo) (mk : Bytes) (ty : Ty) (v : Val) (d : Doc)
    (hd : docOf env mk ty v = .ok d) (hk : SizeKnown env info false ty v) (hs : ∀ a, d ≠ .scalar a) :
    bsonExportProjection env info mk ty v = .ok (bdoc (ones d)) := by
  have h : ∃ ws s', pass env mk info (fun _ => ⟨0, 0, 0, []⟩) true .Array ty v (init none) = .ok (ws, s') ∧ bytesOf ws = bdoc (tree false true (fun _ => ⟨0, 0, 0, []⟩) [] 0 d) := by
    obtain ⟨ws, key, e, hw, -⟩ := pass_doc (fun _ => ⟨0, 0, 0, []⟩) true env mk info ty v d hd hk (plain_true d) _ rfl (init none) ⟨[], rfl⟩
    have hr : BsonP.rootKind (btree d) ≠ .Value := by
      cases d with
      | scalar a => exact absurd rfl (hs a)
      | arr ts => exact (by decide : BCont.Array ≠ .Value)
      | obj ms => exact (by decide : BCont.Map ≠ .Value)
    have hp : pass env mk info (fun _ => ⟨0, 0, 0, []⟩) true .Array ty v (init none) =
        pass env mk info (fun _ => ⟨0, 0, 0, []⟩) true (BsonP.rootKind (btree d)) ty v (init none) := by
      simp only [pass, BPrint.closeDoc, if_neg hr, if_neg (show ¬ BCont.Array = .Value by decide)]
    exact ⟨ws, _, hp.trans e, hw⟩
  obtain ⟨ws, s', e, hw⟩ := h
  rw [bsonExportProjection, e]
  simp only [Res.ok_bind, hw, tree_ones, Res.pure_eq]

theorem bsonGetPrintSize_doc (env : Env) (info : BPrint.SizeInfo) (mk : Bytes) (ty : Ty) (v : Val) (store : Option (List ObjectID)) (d : Doc)
    (hd : docOf env mk ty v = .ok d) (hk : SizeKnown env info false ty v) (ht : TopLevel env ty v) (hs : ∀ a, d ≠ .scalar a) (fresh : Nat → ObjectID) :
    bsonGetPrintSize env info mk ty v store = .ok (bdoc (idTree fresh store d)).length := by
  obtain ⟨a, e, hn⟩ := BIds.psize_doc store.isSome false fresh env mk info v [] false ty d hd hk
  have h1 := hn 0
  have h2 := (tree_idTree fresh store 0 d).1
  simp only [Nat.zero_add] at h2
  rw [bsonGetPrintSize, (base_root env mk ty v d hd ht).2, e, ← h2, ← h1]
  cases d with
  | scalar a => exact absurd rfl (hs a)
  | arr ts => rfl
  | obj ms => rfl

theorem bsonExportRange_vec (env : Env) (info : BPrint.SizeInfo) (mk : Bytes) (fresh : Nat → ObjectID) (t : Ty) (vs : List Val) (store : Option (List ObjectID)) :
    bsonExportRange env info mk fresh t vs store = bsonExportIds env info mk fresh (.vec t) (.list vs) store := by
  have hp : BIds.psize env mk info store.isSome false [] false (.vec t) (.list vs) =
      (BIds.psizeList env mk info store.isSome false [.Array] t vs >>= fun n => .ok (BPrint.sizeArray vs.length + n)) := rfl
  have hs : BIds.ser env mk info fresh false (.vec t) (.list vs) (init store) =
      block fresh false (BIds.psize env mk info store.isSome false [] false (.vec t) (.list vs)) .openArray .closeArray
        (BIds.serList env mk info fresh false t vs) (init store) := rfl
  have hr : bsonRefuses (.vec t) (.list vs) = false := rfl
  rw [bsonExportRange, bsonExportIds, pass, hs, hp, hr]
  cases h : BIds.psizeList env mk info store.isSome false [.Array] t vs with
  | ok n =>
    simp only [Res.ok_bind, Bool.false_eq_true, if_false]
    cases h2 : block fresh false (.ok (BPrint.sizeArray vs.length + n)) .openArray .closeArray (BIds.serList env mk info fresh false t vs)
        (init store) with
    | ok r => rfl
    | throw e => rfl
    | ub => rfl
  | throw e => rfl
  | ub => rfl

end Thors
