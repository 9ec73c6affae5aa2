import Verif.Proofs.BsonExport
import Verif.Model.BsonIds
import Verif.Spec.BsonIds
/-
The BSON printer with an `idStore` and with projections: sizes known in advance.
-/
namespace Thors
open Spec StrIn

namespace BIds

/-- The scalar written for a value. -/
def scalar (proj : Bool) (a : Atom) : BScalar := if proj then .int32 1 else bscalar a

section
variable (ids proj : Bool)

mutual
/-- The number of identifiers inserted into a document that is printed inside the containers `lv`. -/
def count : List BCont → Doc → Nat
  | _, .scalar _ => 0
  | lv, .arr ts => countElems (.Array :: lv) ts
  | lv, .obj ms => (if needId ids lv then 1 else 0) + countMems (.Map :: lv) ms
def countElems : List BCont → List Doc → Nat
  | _, [] => 0
  | lv, t :: ts => count lv t + countElems lv ts
def countMems : List BCont → List (Bytes × Doc) → Nat
  | _, [] => 0
  | lv, (_, t) :: ms => count lv t + countMems lv ms
end

variable (fresh : Nat → ObjectID)

mutual
/-- The tree that is printed inside the containers `lv`, with the identifiers from the `n`-th on. -/
def tree : List BCont → Nat → Doc → BTree
  | _, _, .scalar a => .scalar (scalar proj a)
  | lv, n, .arr ts => .arr (treeElems (.Array :: lv) n ts)
  | lv, n, .obj ms =>
    .obj ((if needId ids lv then [idMember (fresh n)] else []) ++ treeMems (.Map :: lv) (n + if needId ids lv then 1 else 0) ms)
def treeElems : List BCont → Nat → List Doc → List BTree
  | _, _, [] => []
  | lv, n, t :: ts => tree lv n t :: treeElems lv (n + count ids lv t) ts
def treeMems : List BCont → Nat → List (Bytes × Doc) → List (Bytes × BTree)
  | _, _, [] => []
  | lv, n, (k, t) :: ms => (k, tree lv n t) :: treeMems lv (n + count ids lv t) ms
end

theorem countMems_append (lv : List BCont) (a b : List (Bytes × Doc)) : countMems ids lv (a ++ b) = countMems ids lv a + countMems ids lv b := by
  induction a with
  | nil => simp [countMems]
  | cons m a ih => obtain ⟨k, t⟩ := m; simp [countMems, ih]; omega

theorem treeMems_append (lv : List BCont) (a b : List (Bytes × Doc)) : ∀ n,
    treeMems ids proj fresh lv n (a ++ b) = treeMems ids proj fresh lv n a ++ treeMems ids proj fresh lv (n + countMems ids lv a) b := by
  induction a with
  | nil => intro n; simp [treeMems, countMems]
  | cons m a ih => intro n; obtain ⟨k, t⟩ := m; simp [treeMems, countMems, ih, Nat.add_assoc]

/-- Length of members, of elements. -/
def mlen (lv : List BCont) (n : Nat) (ms : List (Bytes × Doc)) : Nat := (bpayload.members (treeMems ids proj fresh lv n ms)).length
def elen (lv : List BCont) (n i : Nat) (ts : List Doc) : Nat := (bpayload.elems i (treeElems ids proj fresh lv n ts)).length

theorem mlen_append (lv : List BCont) (n : Nat) (a b : List (Bytes × Doc)) :
    mlen ids proj fresh lv n (a ++ b) = mlen ids proj fresh lv n a + mlen ids proj fresh lv (n + countMems ids lv a) b := by
  simp [mlen, treeMems_append, bpayload_members_append]

theorem mlen_cons (lv : List BCont) (n : Nat) (k : Bytes) (d : Doc) (ms : List (Bytes × Doc)) : mlen ids proj fresh lv n ((k, d) :: ms) =
    k.length + (bpayload (tree ids proj fresh lv n d)).length + 2 + mlen ids proj fresh lv (n + count ids lv d) ms := by
  simp [mlen, treeMems, bpayload.members]; omega

theorem elen_cons (lv : List BCont) (n i : Nat) (d : Doc) (ts : List Doc) : elen ids proj fresh lv n i (d :: ts) =
    (decimal i).length + (bpayload (tree ids proj fresh lv n d)).length + 2 + elen ids proj fresh lv (n + count ids lv d) (i + 1) ts := by
  simp [elen, treeElems, bpayload.elems]; omega

theorem objectIdBytes_length (o : ObjectID) : (objectIdBytes o).length = 12 := by simp [objectIdBytes, be, le_length]

theorem obj_len (lv : List BCont) (n : Nat) (ms : List (Bytes × Doc)) : (bpayload (tree ids proj fresh lv n (.obj ms))).length =
    4 + (if needId ids lv then 17 else 0) + mlen ids proj fresh (.Map :: lv) (n + if needId ids lv then 1 else 0) ms + 1 := by
  rw [tree, bpayload, framed_len, bpayload_members_append, List.length_append]
  have : (bpayload.members (if needId ids lv = true then [idMember (fresh n)] else [])).length = if needId ids lv then 17 else 0 := by
    split
    · simp [bpayload.members, idMember, bpayload, BScalar.payload, objectIdBytes_length]
    · rfl
  rw [this, mlen]
  omega

theorem arr_len (lv : List BCont) (n : Nat) (ts : List Doc) : (bpayload (tree ids proj fresh lv n (.arr ts))).length =
    4 + elen ids proj fresh (.Array :: lv) n 0 ts + 1 := by
  rw [tree, bpayload, framed_len]; rfl

theorem str_len (lv : List BCont) (n : Nat) (s : Bytes) : (bpayload (tree ids proj fresh lv n (.scalar (.str s)))).length = getSize proj (4 + s.length + 1) := by
  cases proj <;> simp [tree, scalar, getSize, bscalar, bpayload, BScalar.payload, le_length]; omega

theorem int_len (lv : List BCont) (n : Nat) (k : IntKind) (i : Int) :
    (bpayload (tree ids proj fresh lv n (.scalar (.int k i)))).length = getSize proj (BPrint.intWidth k) := by
  cases proj
  · simp only [tree, scalar, getSize, bscalar, bpayload, BPrint.intWidth, Bool.false_eq_true, if_false]
    split <;> simp [BScalar.payload, le_length]
  · simp [tree, scalar, getSize, bpayload, BScalar.payload, le_length]

theorem flt_len (lv : List BCont) (n : Nat) (f : FKind) (x : Flt) :
    (bpayload (tree ids proj fresh lv n (.scalar (.flt f x)))).length = getSize proj 8 := by
  cases proj <;> simp [tree, scalar, getSize, bscalar, bpayload, BScalar.payload, le_length]

theorem bool_len (lv : List BCont) (n : Nat) (b : Bool) : (bpayload (tree ids proj fresh lv n (.scalar (.bool b)))).length = getSize proj 1 := by
  cases proj <;> simp [tree, scalar, getSize, bscalar, bpayload, BScalar.payload, le_length]

theorem null_len (lv : List BCont) (n : Nat) : (bpayload (tree ids proj fresh lv n (.scalar .null))).length = getSize proj 0 := by
  cases proj <;> simp [tree, scalar, getSize, bscalar, bpayload, BScalar.payload, le_length]

variable (env : Env) (mk : Bytes) (info : BPrint.SizeInfo)

theorem elems_size {a e c : Nat} (h : e + keyLengths 0 = c * 2 + keyLengths (0 + c) + a) : BPrint.sizeArray c + a = 4 + e + 1 := by
  rw [BPrint.sizeArray, indexLoop_keys]
  simp [keyLengths] at h ⊢
  omega

/-- The members of a pair without empty optionals all count. -/
theorem psizePair_own (lv : List BCont) : ∀ (vs : List Val) (self : Val) (ms : List Member) (k n : Nat), NoEmpty ms vs →
    psizeOwn env mk info ids proj lv none self ms vs = .ok (k, n) → psizePair env mk info ids proj lv ms vs = .ok n ∧ k = ms.length
  | [], self, [], k, n, _, h => by cases h; exact ⟨rfl, rfl⟩
  | [], self, _ :: _, k, n, _, h => by cases h
  | _ :: _, self, [], k, n, _, h => by cases h
  | v :: vs, self, m :: ms, k, n, hn, h => by
    obtain ⟨h1, h2, h3⟩ := hn
    rw [psizeOwn, if_pos ((keep_iff none self m v).2 h2)] at h
    obtain ⟨a, e1, h⟩ := Res.bind_ok h
    obtain ⟨⟨k', n'⟩, e2, h⟩ := Res.bind_ok h
    obtain ⟨e3, rfl⟩ := psizePair_own lv vs self ms k' n' h3 e2
    cases h
    rw [psizePair, e1, e3, h1]
    simp [Nat.add_comm]

mutual
theorem psize_doc : ∀ (v : Val) (lv : List BCont) (p : Bool) (ty : Ty) (d : Doc), docOf env mk ty v = .ok d → SizeKnown env info p ty v →
    ∃ a, psize env mk info ids proj lv p ty v = .ok a ∧ ∀ n, (bpayload (tree ids proj fresh lv n d)).length = a
  | .int i, lv, p, ty, d, h, hk => by
    cases ty <;> simp [docOf] at h
    subst h; exact ⟨_, by rw [psize], fun n => int_len ..⟩
  | .flt x, lv, p, ty, d, h, hk => by
    cases ty <;> simp [docOf] at h
    subst h; exact ⟨_, by rw [psize], fun n => flt_len ..⟩
  | .bool b, lv, p, ty, d, h, hk => by
    cases ty <;> simp [docOf] at h
    subst h; exact ⟨_, by rw [psize], fun n => bool_len ..⟩
  | .str s, lv, p, ty, d, h, hk => by
    cases ty <;> simp [docOf] at h
    subst h; exact ⟨_, by rw [psize], fun n => str_len ..⟩
  | .none, lv, p, ty, d, h, hk => by cases ty <;> simp [docOf, throwStd] at h
  | .null, lv, p, ty, d, h, hk => by
    cases ty <;> simp [docOf] at h <;> subst h <;> exact ⟨_, by rw [psize], fun n => null_len ..⟩
  | .some v, lv, p, ty, d, h, hk => by
    cases ty <;> simp [docOf] at h
    rw [psize]; exact psize_doc v lv p _ d h hk
  | .ptr v, lv, p, ty, d, h, hk => by
    cases ty <;> simp [docOf] at h
    rw [psize]; exact psize_doc v lv true _ d h hk
  | .list vs, lv, p, ty, d, h, hk => by
    cases ty with
    | seq k t =>
      rw [docOf] at h
      obtain ⟨ds, h1, h2⟩ := Res.bind_ok h
      obtain rfl := Res.ok_inj h2
      obtain ⟨a, e, hl, hn⟩ := psizeList_doc vs (.Array :: lv) t ds h1 hk
      exact ⟨_, by rw [psize, e]; rfl, fun n => by rw [arr_len, elems_size (hn n 0)]⟩
    | arr m t =>
      rw [docOf] at h
      obtain ⟨ds, h1, h2⟩ := Res.bind_ok h
      obtain rfl := Res.ok_inj h2
      obtain ⟨a, e, hl, hn⟩ := psizeList_doc vs (.Array :: lv) t ds h1 hk
      exact ⟨_, by rw [psize, e]; rfl, fun n => by rw [arr_len, elems_size (hn n 0)]⟩
    | named i =>
      rw [docOf] at h
      rw [SizeKnown] at hk
      rw [psize]
      cases hd : env.defs i <;> simp only [hd] at h hk ⊢ <;> try (cases h; done)
      rename_i ts
      obtain ⟨ds, h1, h2⟩ := Res.bind_ok h
      obtain rfl := Res.ok_inj h2
      obtain ⟨a, e, hl, hn⟩ := psizeTuple_doc vs (.Array :: lv) ts ds h1 hk
      exact ⟨_, by rw [e]; rfl, fun n => by rw [arr_len, elems_size (hn n 0)]⟩
    | _ => simp [docOf] at h
  | .dict kvs, lv, p, ty, d, h, hk => by
    cases ty with
    | smap t | mmap t | umap t =>
      rw [docOf] at h
      obtain ⟨ds, h1, h2⟩ := Res.bind_ok h
      obtain rfl := Res.ok_inj h2
      obtain ⟨a, e, hn⟩ := psizeDict_doc kvs (.Map :: lv) t ds h1 hk
      refine ⟨_, by rw [psize, e]; rfl, fun n => ?_⟩
      rw [obj_len, hn, sizeMap]
      omega
    | _ => simp [docOf] at h
  | .enum e, lv, p, ty, d, h, hk => by
    cases ty with
    | named i =>
      rw [docOf] at h
      rw [psize]
      cases hd : env.defs i <;> simp only [hd] at h ⊢ <;> try (cases h; done)
      rename_i table
      simp only [enumName]
      cases hl : table.lookup e with
      | none => rw [hl] at h; cases h
      | some s => rw [hl] at h; obtain rfl := Res.ok_inj h; exact ⟨_, rfl, fun n => str_len ..⟩
    | _ => simp [docOf] at h
  | .obj ps fs, lv, p, ty, d, h, hk => by
    cases ty with
    | named i =>
      rw [docOf] at h
      rw [SizeKnown] at hk
      rw [psize]
      cases hd : env.defs i with
      | cls c =>
        obtain ⟨⟨dps, ms, f⟩, name, field⟩ := c
        simp only [hd] at h hk ⊢
        obtain ⟨own, h1, h⟩ := Res.bind_ok h
        obtain ⟨up, h2, h⟩ := Res.bind_ok h
        obtain rfl := Res.ok_inj h
        obtain ⟨hk1, hk2, hk3⟩ := hk
        obtain ⟨a, e, hn⟩ := psizeOwn_doc fs (.Map :: lv) f (.obj ps fs) ms own h1 hk2
        obtain ⟨a', e', hn'⟩ := psizeParents_doc ps (.Map :: lv) dps up h2 hk3
        cases hp : info.pair i with
        | true =>
          simp only [hp, if_true] at hk1 ⊢
          obtain ⟨rfl, rfl, rfl, hm2, hne⟩ := hk1
          obtain ⟨e2, hl⟩ := psizePair_own ids proj env mk info (.Map :: lv) fs (.obj ps fs) ms own.length a hne e
          have hup : up = [] := by
            cases ps with
            | nil => exact (Res.ok_inj h2).symm
            | cons _ _ => cases h2
          subst hup
          refine ⟨_, by rw [e2]; rfl, fun n => ?_⟩
          simp only [Option.isSome_none, Bool.false_eq_true, if_false, List.nil_append, List.append_nil]
          rw [obj_len, hn, sizeMap]
          omega
        | false =>
          simp only [hp, if_false, Bool.false_eq_true] at hk1 ⊢
          rw [e, e']
          simp only [Res.ok_bind]
          have hc : (if info.virt i = true then p else field.isSome) = field.isSome := by
            rcases hk1 with hv | ⟨hv1, hv2⟩
            · simp [hv]
            · subst hv1 hv2; simp
          rw [hc]
          cases field with
          | none =>
            refine ⟨_, rfl, fun n => ?_⟩
            simp only [Option.isSome_none, Bool.false_eq_true, if_false, List.nil_append]
            rw [obj_len, mlen_append, hn, hn', sizeMap]
            omega
          | some fn =>
            refine ⟨_, rfl, fun n => ?_⟩
            simp only [Option.isSome_some, if_true, List.cons_append, List.nil_append]
            rw [obj_len, mlen_cons, mlen_append, hn, hn', str_len, sizeMap]
            omega
      | _ => simp [hd] at h
    | _ => simp [docOf] at h
  | .dyn c v, lv, p, ty, d, h, hk => by
    cases ty with
    | pptr b =>
      cases v with
      | obj ps fs =>
        rw [docOf] at h
        rw [SizeKnown] at hk
        rw [psize]
        cases hd : env.defs c with
        | cls cd =>
          obtain ⟨⟨dps, ms, f⟩, name, field⟩ := cd
          simp only [hd] at h hk ⊢
          obtain ⟨own, h1, h⟩ := Res.bind_ok h
          obtain ⟨up, h2, h⟩ := Res.bind_ok h
          obtain rfl := Res.ok_inj h
          obtain ⟨hk1, hk2, hk3, hk4⟩ := hk
          obtain ⟨a, e, hn⟩ := psizeOwn_doc fs (.Map :: lv) f (.obj ps fs) ms own h1 hk3
          obtain ⟨a', e', hn'⟩ := psizeParents_doc ps (.Map :: lv) dps up h2 hk4
          rw [e, e']
          refine ⟨_, rfl, fun n => ?_⟩
          rw [obj_len, mlen_cons, mlen_append, hn, hn', str_len, sizeMap]
          omega
        | _ => simp [hd] at h
      | _ => simp [docOf] at h
    | _ => simp [docOf] at h
  | .alt c v, lv, p, ty, d, h, hk => by
    cases ty with
    | named i =>
      cases v with
      | obj ps fs =>
        rw [docOf] at h
        rw [SizeKnown] at hk
        rw [psize]
        cases hd : env.defs c with
        | cls cd =>
          obtain ⟨⟨dps, ms, f⟩, name, field⟩ := cd
          simp only [hd] at h hk ⊢
          obtain ⟨own, h1, h⟩ := Res.bind_ok h
          obtain ⟨up, h2, h⟩ := Res.bind_ok h
          obtain rfl := Res.ok_inj h
          obtain ⟨hk1, hk2, hk3, hk4, hk5⟩ := hk
          obtain ⟨a, e, hn⟩ := psizeOwn_doc fs (.Map :: lv) f (.obj ps fs) ms own h1 hk4
          obtain ⟨a', e', hn'⟩ := psizeParents_doc ps (.Map :: lv) dps up h2 hk5
          rw [e, e']
          simp only [hk1, hk3, Res.ok_bind, Bool.false_eq_true, if_false, if_true]
          refine ⟨_, rfl, fun n => ?_⟩
          rw [obj_len, mlen_cons, mlen_append, hn, hn', str_len, sizeMap]
          omega
        | _ => simp [hd] at h
      | _ => simp [docOf] at h
    | _ => simp [docOf] at h
termination_by structural v => v
theorem psizeList_doc : ∀ (vs : List Val) (lv : List BCont) (t : Ty) (ds : List Doc), docList env mk t vs = .ok ds → SizeKnownList env info t vs →
    ∃ a, psizeList env mk info ids proj lv t vs = .ok a ∧ ds.length = vs.length ∧
      ∀ n i, elen ids proj fresh lv n i ds + keyLengths i = vs.length * 2 + keyLengths (i + vs.length) + a
  | [], lv, t, ds, h, hk => by
    obtain rfl := Res.ok_inj h
    exact ⟨0, rfl, rfl, fun n i => by simp [elen, treeElems, bpayload.elems]⟩
  | v :: vs, lv, t, ds, h, hk => by
    rw [docList] at h
    obtain ⟨a, h1, h⟩ := Res.bind_ok h
    obtain ⟨b, h2, h⟩ := Res.bind_ok h
    obtain rfl := Res.ok_inj h
    obtain ⟨x, e, hl, hn⟩ := psizeList_doc vs lv t b h2 hk.2
    obtain ⟨y, e1, hy⟩ := psize_doc v lv false t a h1 hk.1
    refine ⟨y + x, by rw [psizeList, e1, e]; rfl, by simp [hl], ?_⟩
    intro n i
    have := hn (n + count ids lv a) (i + 1)
    rw [keyLengths_succ] at this
    rw [elen_cons, hy, List.length_cons, show i + (vs.length + 1) = i + 1 + vs.length by omega]
    omega
termination_by structural vs => vs
theorem psizeTuple_doc : ∀ (vs : List Val) (lv : List BCont) (ts : List Ty) (ds : List Doc), docTuple env mk ts vs = .ok ds → SizeKnownTuple env info ts vs →
    ∃ a, psizeTuple env mk info ids proj lv ts vs = .ok a ∧ ds.length = ts.length ∧
      ∀ n i, elen ids proj fresh lv n i ds + keyLengths i = ts.length * 2 + keyLengths (i + ts.length) + a
  | [], lv, [], ds, h, hk => by
    obtain rfl := Res.ok_inj h
    exact ⟨0, rfl, rfl, fun n i => by simp [elen, treeElems, bpayload.elems]⟩
  | [], lv, _ :: _, ds, h, hk => by cases h
  | _ :: _, lv, [], ds, h, hk => by cases h
  | v :: vs, lv, t :: ts, ds, h, hk => by
    rw [docTuple] at h
    obtain ⟨a, h1, h⟩ := Res.bind_ok h
    obtain ⟨b, h2, h⟩ := Res.bind_ok h
    obtain rfl := Res.ok_inj h
    obtain ⟨x, e, hl, hn⟩ := psizeTuple_doc vs lv ts b h2 hk.2
    obtain ⟨y, e1, hy⟩ := psize_doc v lv false t a h1 hk.1
    refine ⟨y + x, by rw [psizeTuple, e1, e]; rfl, by simp [hl], ?_⟩
    intro n i
    have := hn (n + count ids lv a) (i + 1)
    rw [keyLengths_succ] at this
    rw [elen_cons, hy, List.length_cons, show i + (ts.length + 1) = i + 1 + ts.length by omega]
    omega
termination_by structural vs => vs
theorem psizeDict_doc : ∀ (kvs : List (Bytes × Val)) (lv : List BCont) (t : Ty) (ds : List (Bytes × Doc)), docDict env mk t kvs = .ok ds → SizeKnownDict env info t kvs →
    ∃ a, psizeDict env mk info ids proj lv t kvs = .ok a ∧ ∀ n, mlen ids proj fresh lv n ds = kvs.length * 2 + a
  | [], lv, t, ds, h, hk => by
    obtain rfl := Res.ok_inj h
    exact ⟨0, rfl, fun n => rfl⟩
  | (k, v) :: kvs, lv, t, ds, h, hk => by
    rw [docDict] at h
    obtain ⟨a, h1, h⟩ := Res.bind_ok h
    obtain ⟨b, h2, h⟩ := Res.bind_ok h
    obtain rfl := Res.ok_inj h
    obtain ⟨x, e, hn⟩ := psizeDict_doc kvs lv t b h2 hk.2
    obtain ⟨y, e1, hy⟩ := psize_doc v lv false t a h1 hk.1
    refine ⟨k.length + y + x, by rw [psizeDict, e1, e]; rfl, fun n => ?_⟩
    rw [mlen_cons, hy, hn, List.length_cons]; omega
termination_by structural vs => vs
theorem psizeOwn_doc : ∀ (vs : List Val) (lv : List BCont) (f : Option (Val → Bytes → Bool)) (self : Val) (ms : List Member) (ds : List (Bytes × Doc)),
    docOwn env mk f self ms vs = .ok ds → SizeKnownOwn env info ms vs →
    ∃ a, psizeOwn env mk info ids proj lv f self ms vs = .ok (ds.length, a) ∧ ∀ n, mlen ids proj fresh lv n ds = ds.length * 2 + a
  | [], lv, f, self, [], ds, h, hk => by
    obtain rfl := Res.ok_inj h
    exact ⟨0, rfl, fun n => rfl⟩
  | [], lv, f, self, _ :: _, ds, h, hk => by cases h
  | _ :: _, lv, f, self, [], ds, h, hk => by cases h
  | v :: vs, lv, f, self, m :: ms, ds, h, hk => by
    rw [docOwn] at h
    rw [psizeOwn]
    by_cases hs : shown f self m v
    · rw [if_pos hs] at h
      rw [if_pos ((keep_iff f self m v).2 hs)]
      obtain ⟨a, h1, h⟩ := Res.bind_ok h
      obtain ⟨b, h2, h⟩ := Res.bind_ok h
      obtain rfl := Res.ok_inj h
      obtain ⟨x, e, hn⟩ := psizeOwn_doc vs lv f self ms b h2 hk.2
      obtain ⟨y, e1, hy⟩ := psize_doc v lv false m.ty a h1 hk.1
      refine ⟨m.out.length + y + x, ?_, fun n => ?_⟩
      · rw [e1, e]
        simp only [Res.ok_bind, List.length_cons, Nat.add_comm 1]
        rfl
      · rw [mlen_cons, hy, hn, List.length_cons]; omega
    · rw [if_neg hs] at h
      rw [if_neg (fun h => hs ((keep_iff f self m v).1 h))]
      exact psizeOwn_doc vs lv f self ms ds h hk.2
termination_by structural vs => vs
theorem psizeParents_doc : ∀ (vs : List Val) (lv : List BCont) (ds : List StructDef) (dd : List (Bytes × Doc)),
    docParents env mk ds vs = .ok dd → SizeKnownParents env info ds vs →
    ∃ a, psizeParents env mk info ids proj lv ds vs = .ok (dd.length, a) ∧ ∀ n, mlen ids proj fresh lv n dd = dd.length * 2 + a
  | [], lv, [], dd, h, hk => by
    obtain rfl := Res.ok_inj h
    exact ⟨0, rfl, fun n => rfl⟩
  | [], lv, .mk _ _ _ :: _, dd, h, hk => by cases h
  | _ :: _, lv, [], dd, h, hk => by cases h
  | .obj ps fs :: vs, lv, .mk dps ms f :: ds, dd, h, hk => by
    rw [docParents] at h
    obtain ⟨own, h1, h⟩ := Res.bind_ok h
    obtain ⟨up, h2, h⟩ := Res.bind_ok h
    obtain ⟨b, h3, h⟩ := Res.bind_ok h
    obtain rfl := Res.ok_inj h
    obtain ⟨hk1, hk2, hk3⟩ := hk
    obtain ⟨x, e, hn⟩ := psizeOwn_doc fs lv f (.obj ps fs) ms own h1 hk1
    obtain ⟨x', e', hn'⟩ := psizeParents_doc ps lv dps up h2 hk2
    obtain ⟨x'', e'', hn''⟩ := psizeParents_doc vs lv ds b h3 hk3
    refine ⟨x + x' + x'', ?_, fun n => ?_⟩
    · rw [psizeParents, e, e', e'']
      simp [Nat.add_assoc]
    · simp only [mlen_append, hn, hn', hn'', List.length_append]; omega
  | .int _ :: _, _, .mk _ _ _ :: _, _, h, _ => by cases h
  | .flt _ :: _, _, .mk _ _ _ :: _, _, h, _ => by cases h
  | .bool _ :: _, _, .mk _ _ _ :: _, _, h, _ => by cases h
  | .str _ :: _, _, .mk _ _ _ :: _, _, h, _ => by cases h
  | .enum _ :: _, _, .mk _ _ _ :: _, _, h, _ => by cases h
  | .list _ :: _, _, .mk _ _ _ :: _, _, h, _ => by cases h
  | .dict _ :: _, _, .mk _ _ _ :: _, _, h, _ => by cases h
  | .none :: _, _, .mk _ _ _ :: _, _, h, _ => by cases h
  | .some _ :: _, _, .mk _ _ _ :: _, _, h, _ => by cases h
  | .null :: _, _, .mk _ _ _ :: _, _, h, _ => by cases h
  | .ptr _ :: _, _, .mk _ _ _ :: _, _, h, _ => by cases h
  | .dyn _ _ :: _, _, .mk _ _ _ :: _, _, h, _ => by cases h
  | .alt _ _ :: _, _, .mk _ _ _ :: _, _, h, _ => by cases h
termination_by structural vs => vs
end

/-- The size computed for an object with the class name first. -/
theorem psize_poly (lv : List BCont) {c : Nat} {dps : List StructDef} {ms : List Member} {f : Option (Val → Bytes → Bool)} {name : Bytes} {field : Option Bytes}
    {ps fs : List Val} (hd : env.defs c = .cls ⟨.mk dps ms f, name, field⟩) (hp : info.pair c = false)
    (hv : (if info.virt c = true then true else field.isSome) = true) {own up : List (Bytes × Doc)}
    (h1 : docOwn env mk f (.obj ps fs) ms fs = .ok own) (hk1 : SizeKnownOwn env info ms fs)
    (h2 : docParents env mk dps ps = .ok up) (hk2 : SizeKnownParents env info dps ps) :
    ∃ a, psize env mk info ids proj lv true (.named c) (.obj ps fs) = .ok a ∧
      ∀ n, (bpayload (tree ids proj fresh lv n (.obj ((polyMarker env mk c, .scalar (.str name)) :: (own ++ up))))).length = a := by
  obtain ⟨a, e, hn⟩ := psizeOwn_doc ids proj fresh env mk info fs (.Map :: lv) f (.obj ps fs) ms own h1 hk1
  obtain ⟨a', e', hn'⟩ := psizeParents_doc ids proj fresh env mk info ps (.Map :: lv) dps up h2 hk2
  rw [psize, hd]
  simp only [hp, e, e', Res.ok_bind, hv, Bool.false_eq_true, if_false, if_true]
  refine ⟨_, rfl, fun n => ?_⟩
  rw [obj_len, mlen_cons, mlen_append, hn, hn', str_len, sizeMap]
  omega

end
end BIds
end Thors
