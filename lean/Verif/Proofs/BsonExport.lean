import Verif.Proofs.BsonPrint
import Verif.Proofs.BsonPresents
import Verif.Proofs.RoundTrip
import Verif.Proofs.Restored
import Verif.Proofs.JsonRoundTrip
import Verif.Proofs.FloatCast
/-
Whole BSON documents: export, import, round trip.
-/
namespace Thors
open Spec StrIn BPrint

/-! ### Export -/

theorem bson_run_doc (d : Doc) (ha : AllScalars plainAtom d) :
    ∃ ws s, run (scmds d) BPrint.init = .ok (ws, s) ∧ bytesOf (ws ++ closeDoc (BsonP.rootKind (btree d))) = bdoc (btree d) := by
  cases d with
  | scalar a =>
    refine ⟨[.chars (leBytes 4 (4 + 1 + 2 + (bytesOf (atomBody a)).length + 1 : Nat)), .chars [(bscalar a).code], .chars [0x30, 0x00]] ++ atomBody a, BPrint.init, ?_, ?_⟩
    · simp only [scmds, run, bson_step_atom, element]
      simp [writeKey, BPrint.init]
    · rw [bytesOf_append, bytesOf_append, atomBody_bytes a ha, leBytes_eq_le]
      simp only [btree, bdoc, BsonP.rootKind, closeDoc, if_true, framed]
      have : 4 + 1 + 2 + (bscalar a).payload.length + 1 = 4 + ((bscalar a).code :: [0x30, 0x00] ++ (bscalar a).payload).length + 1 := by simp; omega
      rw [this]
      simp [bytesOf, Write.bytesIn, bytesIn]
  | arr ts =>
    obtain ⟨ws2, key, e2, hb2⟩ := bson_elems ts [] 0 [] [] ha
    refine ⟨[.chars (leBytes 4 (dlen (.arr ts)))] ++ (ws2 ++ [.chars [0x00]]), ⟨[], [], key⟩, ?_, ?_⟩
    · simp only [scmds, List.cons_append, run, step, BPrint.init, writeKey, Res.ok_bind, bson_run_append]
      simp [run, step, e2]
    · simp only [bytesOf_append, hb2, btree, BsonP.rootKind, closeDoc, bdoc, bpayload, framed]
      rw [dlen, arr_len, leBytes_eq_le]
      simp [bytesOf, Write.bytesIn, bytesIn, elen]
  | obj ms =>
    obtain ⟨ws2, key, e2, hb2⟩ := bson_members ms [] [] [] ha
    refine ⟨[.chars (leBytes 4 (dlen (.obj ms)))] ++ (ws2 ++ [.chars [0x00]]), ⟨[], [], key⟩, ?_, ?_⟩
    · simp only [scmds, List.cons_append, run, step, BPrint.init, writeKey, Res.ok_bind, bson_run_append]
      simp [run, step, e2]
    · simp only [bytesOf_append, hb2, btree, BsonP.rootKind, closeDoc, bdoc, bpayload, framed]
      rw [dlen, obj_len, leBytes_eq_le]
      simp [bytesOf, Write.bytesIn, bytesIn, mlen]

theorem base_root (env : Env) (mk : Bytes) : ∀ (ty : Ty) (v : Val) (d : Doc), docOf env mk ty v = .ok d → TopLevel env ty v →
    bsonBase env ty = BsonP.rootKind (btree d) ∧ bsonRefuses ty v = false := by
  intro ty
  induction ty with
  | uptr t ih =>
    intro v d h ht
    cases v with
    | ptr v => exact ⟨(ih v d (by simpa [docOf] using h) ht).1, rfl⟩
    | null => exact ht.elim
    | _ => simp [docOf] at h
  | opt t ih => intro v d h ht; exact ht.elim
  | int k => intro v d h _; cases v <;> simp [docOf] at h; subst h; refine ⟨?_, rfl⟩; rfl
  | flt f => intro v d h _; cases v <;> simp [docOf] at h; subst h; exact ⟨rfl, rfl⟩
  | bool => intro v d h _; cases v <;> simp [docOf] at h; subst h; exact ⟨rfl, rfl⟩
  | str => intro v d h _; cases v <;> simp [docOf] at h; subst h; exact ⟨rfl, rfl⟩
  | seq k t => 
    intro v d h _; cases v <;> rw [docOf] at h <;> try (cases h; done)
    obtain ⟨_, _, h⟩ := Res.bind_ok h
    obtain rfl := Res.ok_inj h; exact ⟨rfl, rfl⟩
  | arr n t => 
    intro v d h _; cases v <;> rw [docOf] at h <;> try (cases h; done)
    obtain ⟨_, _, h⟩ := Res.bind_ok h
    obtain rfl := Res.ok_inj h; exact ⟨rfl, rfl⟩
  | smap t => 
    intro v d h _; cases v <;> rw [docOf] at h <;> try (cases h; done)
    obtain ⟨_, _, h⟩ := Res.bind_ok h
    obtain rfl := Res.ok_inj h; exact ⟨rfl, rfl⟩
  | mmap t => 
    intro v d h _; cases v <;> rw [docOf] at h <;> try (cases h; done)
    obtain ⟨_, _, h⟩ := Res.bind_ok h
    obtain rfl := Res.ok_inj h; exact ⟨rfl, rfl⟩
  | umap t => 
    intro v d h _; cases v <;> rw [docOf] at h <;> try (cases h; done)
    obtain ⟨_, _, h⟩ := Res.bind_ok h
    obtain rfl := Res.ok_inj h; exact ⟨rfl, rfl⟩
  | pptr b =>
    intro v d h ht
    cases v with
    | null => exact ht.elim
    | dyn c v =>
      cases v with
      | obj ps fs =>
        rw [docOf] at h
        split at h
        · obtain ⟨_, _, h⟩ := Res.bind_ok h
          obtain ⟨_, _, h⟩ := Res.bind_ok h
          obtain rfl := Res.ok_inj h; exact ⟨rfl, rfl⟩
        · cases h
      | _ => simp [docOf] at h
    | _ => simp [docOf] at h
  | named i =>
    intro v d h ht
    cases v with
    | obj ps fs =>
      rw [docOf] at h
      split at h
      · rename_i hd
        obtain ⟨_, _, h⟩ := Res.bind_ok h
        obtain ⟨_, _, h⟩ := Res.bind_ok h
        obtain rfl := Res.ok_inj h; exact ⟨by simp only [bsonBase, hd]; rfl, rfl⟩
      · cases h
    | list vs =>
      rw [docOf] at h
      split at h
      · rename_i hd
        obtain ⟨_, _, h⟩ := Res.bind_ok h
        obtain rfl := Res.ok_inj h; exact ⟨by simp only [bsonBase, hd]; rfl, rfl⟩
      · cases h
    | enum e =>
      rw [docOf] at h
      split at h
      · rename_i hd
        split at h
        · obtain rfl := Res.ok_inj h; exact ⟨by simp only [bsonBase, hd]; rfl, rfl⟩
        · cases h
      · cases h
    | alt c w => exact absurd rfl (ht.2 c w)
    | _ => simp [docOf] at h

theorem bsonPass_doc (env : Env) (info : SizeInfo) (mk : Bytes) (ty : Ty) (v : Val) (d : Doc) (hd : docOf env mk ty v = .ok d)
    (hk : SizeKnown env info false ty v) (ha : AllScalars plainAtom d) (ht : TopLevel env ty v) :
    ∃ ws, bsonPass env info mk ty v = .ok ws ∧ bytesOf ws = bdoc (btree d) := by
  obtain ⟨ws, s, e, hb⟩ := bson_run_doc d ha
  have hs := ser_sized env mk info v ty false d hd hk
  refine ⟨_, ?_, hb⟩
  rw [bsonPass, hs, (base_root env mk ty v d hd ht).1]
  simp only [Res.ok_bind, e]
  rfl

theorem bsonExport_doc (env : Env) (info : SizeInfo) (mk : Bytes) (ty : Ty) (v : Val) (d : Doc) (hd : docOf env mk ty v = .ok d)
    (hk : SizeKnown env info false ty v) (ha : AllScalars plainAtom d) (ht : TopLevel env ty v) :
    bsonExport env info mk ty v = .ok (bdoc (btree d)) := by
  obtain ⟨ws, e, hb⟩ := bsonPass_doc env info mk ty v d hd hk ha ht
  rw [bsonExport, (base_root env mk ty v d hd ht).2, e]
  simp [hb]

/-! ### Import -/

/-- The import of BSON bytes into an object of type `ty` with the old value `old`: the new value. -/
noncomputable def bsonImport (env : Env) (cfg : Cfg) (ty : Ty) (old : Val) (t : Bytes) : Res Val := do
  let (v, _) ← importValue BsonP.ops env cfg ty old (PI.init (BsonP.ofBytes (bsonBase env ty) t))
  return v

theorem bson_import_match (env : Env) (cfg : Cfg) (t : BTree) (h : Storable32 t) (rest : Bytes) (ty : Ty) (hb : bsonBase env ty = BsonP.rootKind t) (old : Val) :
    Match (Sk cfg (t.skippable bsem)) (fun s => BIn rest s.inp)
      (importValue BsonP.ops env cfg ty old (PI.init (BsonP.ofBytes (bsonBase env ty) (bdoc t ++ rest)))) (imp bsem env cfg t ty old) := by
  obtain ⟨s1, h1, h2⟩ := BsonP.bdoc_presents BsonP.skipper_ignore t h rest
  rw [hb]
  exact import_refines BsonP.ops bsem env cfg (s := BsonP.ofBytes (BsonP.rootKind t) (bdoc t ++ rest)) h1 h2 ty old

mutual
theorem bskippable : ∀ t : BTree, t.skippable bsem = true
  | .scalar x => rfl
  | .arr ts => bskippable_elems ts
  | .obj ms => bskippable_members ms
theorem bskippable_elems : ∀ ts : List BTree, Tr.skippable.all bsem ts = true
  | [] => rfl
  | t :: ts => by simp [Tr.skippable.all, bskippable t, bskippable_elems ts]
theorem bskippable_members : ∀ ms : List (Bytes × BTree), Tr.skippable.allM bsem ms = true
  | [] => rfl
  | (k, t) :: ms => by simp [Tr.skippable.allM, bskippable t, bskippable_members ms]; rfl
end

theorem bsonImport_doc (env : Env) (cfg : Cfg) (t : BTree) (h : Storable32 t) (rest : Bytes) (ty : Ty) (hb : bsonBase env ty = BsonP.rootKind t) (old : Val) :
    bsonImport env cfg ty old (bdoc t ++ rest) = imp bsem env cfg t ty old := by
  have := bson_import_match env cfg t h rest ty hb old
  unfold bsonImport
  cases he : imp bsem env cfg t ty old with
  | ok a => rw [he] at this; obtain ⟨s, e, -⟩ := this; rw [e]; rfl
  | throw e => rw [he] at this; rw [show importValue _ _ _ _ _ _ = _ from this]; rfl
  | ub => rw [he] at this; rw [this (fun _ => bskippable t)]; rfl

/-! ### Round trip -/

mutual
theorem btree_enc : ∀ d : Doc, btree d = enc id bscalar d
  | .scalar a => rfl
  | .arr ts => by rw [btree, enc, btree_enc_elems ts]
  | .obj ms => by rw [btree, enc, btree_enc_members ms]
theorem btree_enc_elems : ∀ ts : List Doc, btree.elems ts = enc.elems id bscalar ts
  | [] => rfl
  | t :: ts => by rw [btree.elems, enc.elems, btree_enc t, btree_enc_elems ts]
theorem btree_enc_members : ∀ ms : List (Bytes × Doc), btree.members ms = enc.members id bscalar ms
  | [] => rfl
  | (k, t) :: ms => by rw [btree.members, enc.members, btree_enc t, btree_enc_members ms]; rfl
end

theorem signed32_mod {b : Nat} (h : b ≤ 32) (i : Int) : signed32 i % 2 ^ b = i % 2 ^ b := by
  have hd : (2 : Int) ^ b ∣ 2 ^ 32 := ⟨2 ^ (32 - b), by rw [← Int.pow_add]; congr 1; omega⟩
  have : signed32 i % 2 ^ 32 = i % 2 ^ 32 := by unfold signed32; omega
  rw [← Int.emod_emod_of_dvd _ hd, this, Int.emod_emod_of_dvd _ hd]

theorem signed64_mod (i : Int) : signed64 i % 2 ^ 64 = i % 2 ^ 64 := by unfold signed64; omega

theorem unle_leBytes : ∀ (n v : Nat), unle (leBytes n (v : Int)) = v % 256 ^ n
  | 0, v => by simp [leBytes, unle, Nat.mod_one]
  | n + 1, v => by
    have h1 : ((v : Int) / 256) = ((v / 256 : Nat) : Int) := by omega
    have h2 : (UInt8.ofNat ((v : Int) % 256).toNat).toNat = v % 256 := by
      rw [show ((v : Int) % 256).toNat = v % 256 by omega]
      simp
    rw [leBytes, unle, h1, unle_leBytes n, h2, Nat.pow_succ', Nat.mod_mul]

theorem unle_le (n v : Nat) : unle (le n (v : Int)) = v % 256 ^ n := by rw [← leBytes_eq_le, unle_leBytes]

theorem payloadDouble_le {x : Flt} (h : IsFlt f64 x) : payloadDouble (le 8 (doubleBits x : Nat)) = x := by
  rw [payloadDouble, unle_le, Nat.mod_eq_of_lt (doubleBits_lt h), bits_back h]

theorem bsonFaithful : Faithful id bscalar bsem (fun _ => True) (fun a => plainAtom a ∧ doubleAtom a) where
  key k _ := rfl
  null a _ := by
    cases a with
    | int k i => simp only [bscalar]; split <;> simp [bsem]
    | _ => simp [bsem, bscalar]
  int k i hp h := by
    replace hp := hp.1
    simp only [plainAtom] at hp
    have hb : 0 < k.bits := by omega
    simp only [bscalar]
    split
    · rename_i h64
      simp only [bsem]
      rw [castTo_mod k (signed64 i) i (by rw [h64]; exact signed64_mod i), castTo_fits hb (fits_iff.2 h)]
    · simp only [bsem]
      rw [castTo_mod k (signed32 i) i (signed32_mod (by omega) i), castTo_fits hb (fits_iff.2 h)]
  flt f x hp h := by
    simp only [bscalar, bsem]
    rw [payloadDouble_le (castFlt_value (by decide) x)]
    rcases hp.2 with rfl | rfl | ⟨rfl, y, hy, rfl⟩
    · rw [cast_back widens_32_64 h]
    · rw [cast_back (widens_refl (by decide)) h]
    · rw [cast_back widens_64_80 hy]
  bool b _ := by simp [bsem, bscalar]
  str s _ := by simp [bsem, bscalar]

mutual
theorem bvalid : ∀ d : Doc, AllScalars BScalar.valid (btree d)
  | .scalar a => by
    simp only [btree, AllScalars]
    cases a with
    | int k i => 
      simp only [bscalar]
      split <;> simp only [BScalar.valid, signed64, signed32] <;> omega
    | flt f x => simp [bscalar, BScalar.valid, Fixed.width, le_length]
    | _ => trivial
  | .arr ts => bvalid_elems ts
  | .obj ms => bvalid_members ms
theorem bvalid_elems : ∀ ts : List Doc, AllScalars.elems BScalar.valid (btree.elems ts)
  | [] => trivial
  | t :: ts => ⟨bvalid t, bvalid_elems ts⟩
theorem bvalid_members : ∀ ms : List (Bytes × Doc), AllScalars.members BScalar.valid (btree.members ms)
  | [] => trivial
  | (_, t) :: ms => ⟨bvalid t, bvalid_members ms⟩
end

mutual
theorem bkeys {P : Bytes → Prop} : ∀ d : Doc, AllKeys P d → AllKeys P (btree d)
  | .scalar a, h => trivial
  | .arr ts, h => bkeys_elems ts h
  | .obj ms, h => bkeys_members ms h
theorem bkeys_elems {P : Bytes → Prop} : ∀ ts : List Doc, AllKeys.elems P ts → AllKeys.elems P (btree.elems ts)
  | [], h => trivial
  | t :: ts, h => ⟨bkeys t h.1, bkeys_elems ts h.2⟩
theorem bkeys_members {P : Bytes → Prop} : ∀ ms : List (Bytes × Doc), AllKeys.members P ms → AllKeys.members P (btree.members ms)
  | [], h => trivial
  | (_, t) :: ms, h => ⟨h.1, bkeys t h.2.1, bkeys_members ms h.2.2⟩
end

mutual
theorem allScalars_and {K X : Type} {P Q : X → Prop} : ∀ d : Tr K X, AllScalars P d → AllScalars Q d → AllScalars (fun x => P x ∧ Q x) d
  | .scalar _, h1, h2 => ⟨h1, h2⟩
  | .arr ts, h1, h2 => allScalars_and_elems ts h1 h2
  | .obj ms, h1, h2 => allScalars_and_members ms h1 h2
theorem allScalars_and_elems {K X : Type} {P Q : X → Prop} : ∀ ts : List (Tr K X), AllScalars.elems P ts → AllScalars.elems Q ts →
    AllScalars.elems (fun x => P x ∧ Q x) ts
  | [], _, _ => trivial
  | t :: ts, h1, h2 => ⟨allScalars_and t h1.1 h2.1, allScalars_and_elems ts h1.2 h2.2⟩
theorem allScalars_and_members {K X : Type} {P Q : X → Prop} : ∀ ms : List (K × Tr K X), AllScalars.members P ms → AllScalars.members Q ms →
    AllScalars.members (fun x => P x ∧ Q x) ms
  | [], _, _ => trivial
  | (_, t) :: ms, h1, h2 => ⟨allScalars_and t h1.1 h2.1, allScalars_and_members ms h1.2 h2.2⟩
end

/-- Export, then import of the bytes in front of anything. -/
theorem bson_round_trip (env : Env) (info : SizeInfo) (mk : Bytes) (cfg : Cfg) (ty : Ty) (v old : Val) (d : Doc) (post : Bytes)
    (hg : GoodTypes env) (hm : cfg.marker = mk) (hx : cfg.strict = .Exact → ExactTypes env)
    (hd : docOf env mk ty v = .ok d) (hs : Storable env mk ty v) (ho : Fresh env ty old)
    (hz : SizeKnown env info false ty v) (ht : TopLevel env ty v)
    (hk : AllKeys (fun k => (0x00 : Byte) ∉ k) d) (ha : AllScalars plainAtom d) (hf : AllScalars doubleAtom d) (hl : (bdoc (btree d)).length < 2 ^ 31) :
    bsonExport env info mk ty v = .ok (bdoc (btree d)) ∧ ∃ p,
      importValue BsonP.ops env cfg ty old (PI.init (BsonP.ofBytes (bsonBase env ty) (bdoc (btree d) ++ post))) = .ok (restored env ty old v, p) ∧
      p.inner.inp.rest = post := by
  refine ⟨bsonExport_doc env info mk ty v d hd hz ha ht, ?_⟩
  have h1 := bson_import_match env cfg (btree d) ⟨bkeys d hk, bvalid d, hl⟩ post ty (base_root env mk ty v d hd ht).1 old
  have h2 := rt_val id bscalar bsem env cfg mk bsonFaithful hg hm hx v ty old d hd hs ho (allKeys_true d) (allScalars_and d ha hf)
  rw [← btree_enc] at h2
  rw [h2] at h1
  obtain ⟨s, e1, h3⟩ := h1
  exact ⟨_, e1, h3.1⟩

end Thors
