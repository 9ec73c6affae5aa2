import Verif.Proofs.BsonNum
import Verif.Proofs.SerDoc
import Verif.Proofs.JsonPrint
import Verif.Spec.BsonDoc
/-
The BSON printer: sizes known in advance, bytes written.
-/
namespace Thors
open Spec StrIn BPrint

theorem Res.bind_ok {α β : Type} {r : Res α} {f : α → Res β} {b : β} (h : r >>= f = .ok b) : ∃ a, r = .ok a ∧ f a = .ok b := by
  cases r with
  | ok a => exact ⟨a, rfl, h⟩
  | throw e => cases h
  | ub => cases h

theorem Res.ok_inj {α : Type} {a b : α} (h : (Res.ok a) = .ok b) : a = b := by cases h; rfl

/-! ### Sizes -/

theorem framed_len (e : Bytes) : (framed e).length = 4 + e.length + 1 := by simp [framed, le_length]; omega

theorem btree.members_append (a b : List (Bytes × Doc)) : btree.members (a ++ b) = btree.members a ++ btree.members b := by
  induction a with
  | nil => rfl
  | cons m a ih => obtain ⟨k, t⟩ := m; simp [btree.members, ih]

theorem bpayload_members_append (a b : List (Bytes × BTree)) : bpayload.members (a ++ b) = bpayload.members a ++ bpayload.members b := by
  induction a with
  | nil => rfl
  | cons m a ih => obtain ⟨k, t⟩ := m; simp [bpayload.members, ih]

/-- Length of the members of a document. -/
def mlen (ms : List (Bytes × Doc)) : Nat := (bpayload.members (btree.members ms)).length

theorem mlen_append (a b : List (Bytes × Doc)) : mlen (a ++ b) = mlen a + mlen b := by
  simp [mlen, btree.members_append, bpayload_members_append]

theorem mlen_cons (k : Bytes) (d : Doc) (ms : List (Bytes × Doc)) : mlen ((k, d) :: ms) = k.length + (bpayload (btree d)).length + 2 + mlen ms := by
  simp [mlen, btree.members, bpayload.members]; omega

theorem mlen_nil : mlen [] = 0 := rfl

theorem obj_len (ms : List (Bytes × Doc)) : (bpayload (btree (.obj ms))).length = 4 + mlen ms + 1 := by
  rw [btree, bpayload, framed_len]; rfl

/-- Length of the elements of an array. -/
def elen (i : Nat) (ts : List Doc) : Nat := (bpayload.elems i (btree.elems ts)).length

theorem elen_cons (i : Nat) (d : Doc) (ts : List Doc) : elen i (d :: ts) = (decimal i).length + (bpayload (btree d)).length + 2 + elen (i + 1) ts := by
  simp [elen, btree.elems, bpayload.elems]; omega

theorem arr_len (ts : List Doc) : (bpayload (btree (.arr ts))).length = 4 + elen 0 ts + 1 := by
  rw [btree, bpayload, framed_len]; rfl

theorem str_len (s : Bytes) : (bpayload (btree (.scalar (.str s)))).length = 4 + s.length + 1 := by
  simp [btree, bscalar, bpayload, BScalar.payload, le_length]; omega

theorem int_len (k : IntKind) (i : Int) : (bpayload (btree (.scalar (.int k i)))).length = intWidth k := by
  simp only [btree, bscalar, bpayload, intWidth]
  split <;> simp [BScalar.payload, le_length]

theorem flt_len (f : FKind) (x : Flt) : (bpayload (btree (.scalar (.flt f x)))).length = 8 := by
  simp [btree, bscalar, bpayload, BScalar.payload, le_length]

section
variable (env : Env) (mk : Bytes) (info : SizeInfo)

theorem elems_size {n : Nat} {ts : List Doc} {i c : Nat} (h : elen i ts + keyLengths i = c * 2 + keyLengths (i + c) + n) (hi : i = 0) :
    sizeArray c + n = 4 + elen 0 ts + 1 := by
  subst hi
  rw [sizeArray, indexLoop_keys]
  simp [keyLengths] at h ⊢
  omega

/-- The members of a pair without empty optionals all count. -/
theorem psizePair_own : ∀ (vs : List Val) (self : Val) (ms : List Member) (k n : Nat), NoEmpty ms vs →
    psizeOwn env mk info none self ms vs = .ok (k, n) → psizePair env mk info ms vs = .ok n ∧ k = ms.length
  | [], self, [], k, n, _, h => by cases h; exact ⟨rfl, rfl⟩
  | [], self, _ :: _, k, n, _, h => by cases h
  | _ :: _, self, [], k, n, _, h => by cases h
  | v :: vs, self, m :: ms, k, n, hn, h => by
    obtain ⟨h1, h2, h3⟩ := hn
    rw [psizeOwn, if_pos ((keep_iff none self m v).2 h2)] at h
    obtain ⟨a, e1, h⟩ := Res.bind_ok h
    obtain ⟨⟨k', n'⟩, e2, h⟩ := Res.bind_ok h
    obtain ⟨e3, rfl⟩ := psizePair_own vs self ms k' n' h3 e2
    cases h
    rw [psizePair, e1, e3, h1]
    simp [Nat.add_comm]

mutual
theorem psize_doc : ∀ (v : Val) (p : Bool) (ty : Ty) (d : Doc), docOf env mk ty v = .ok d → SizeKnown env info p ty v →
    psize env mk info p ty v = .ok (bpayload (btree d)).length
  | .int i, p, ty, d, h, hk => by
    cases ty <;> simp [docOf] at h
    subst h; rw [psize, int_len]
  | .flt x, p, ty, d, h, hk => by
    cases ty <;> simp [docOf] at h
    subst h; rw [psize, flt_len]
  | .bool b, p, ty, d, h, hk => by
    cases ty <;> simp [docOf] at h
    subst h; rfl
  | .str s, p, ty, d, h, hk => by
    cases ty <;> simp [docOf] at h
    subst h; rw [psize, str_len]
  | .none, p, ty, d, h, hk => by cases ty <;> simp [docOf, throwStd] at h
  | .null, p, ty, d, h, hk => by
    cases ty <;> simp [docOf] at h <;> subst h <;> rfl
  | .some v, p, ty, d, h, hk => by
    cases ty <;> simp [docOf] at h
    rw [psize]; exact psize_doc v p _ d h hk
  | .ptr v, p, ty, d, h, hk => by
    cases ty <;> simp [docOf] at h
    rw [psize]; exact psize_doc v true _ d h hk
  | .list vs, p, ty, d, h, hk => by
    cases ty with
    | seq k t =>
      rw [docOf] at h
      obtain ⟨ds, h1, h2⟩ := Res.bind_ok h
      obtain rfl := Res.ok_inj h2
      obtain ⟨n, e, hl, hn⟩ := psizeList_doc vs t ds h1 hk
      rw [psize, e, arr_len]
      exact congrArg Res.ok (elems_size (hn 0) rfl)
    | arr m t =>
      rw [docOf] at h
      obtain ⟨ds, h1, h2⟩ := Res.bind_ok h
      obtain rfl := Res.ok_inj h2
      obtain ⟨n, e, hl, hn⟩ := psizeList_doc vs t ds h1 hk
      rw [psize, e, arr_len]
      exact congrArg Res.ok (elems_size (hn 0) rfl)
    | named i =>
      rw [docOf] at h
      rw [SizeKnown] at hk
      rw [psize]
      cases hd : env.defs i <;> simp only [hd] at h hk ⊢ <;> try (cases h; done)
      rename_i ts
      obtain ⟨ds, h1, h2⟩ := Res.bind_ok h
      obtain rfl := Res.ok_inj h2
      obtain ⟨n, e, hl, hn⟩ := psizeTuple_doc vs ts ds h1 hk
      rw [e, arr_len]
      exact congrArg Res.ok (elems_size (hn 0) rfl)
    | _ => simp [docOf] at h
  | .dict kvs, p, ty, d, h, hk => by
    cases ty with
    | smap t | mmap t | umap t =>
      rw [docOf] at h
      obtain ⟨ds, h1, h2⟩ := Res.bind_ok h
      obtain rfl := Res.ok_inj h2
      obtain ⟨n, e, hn⟩ := psizeDict_doc kvs t ds h1 hk
      rw [psize, e, obj_len]
      simp only [Res.ok_bind, sizeMap]
      exact congrArg Res.ok (by omega)
    | _ => simp [docOf] at h
  | .enum e, p, ty, d, h, hk => by
    cases ty with
    | named i =>
      rw [docOf] at h
      rw [psize]
      cases hd : env.defs i <;> simp only [hd] at h ⊢ <;> try (cases h; done)
      rename_i table
      simp only [enumName]
      cases hl : table.lookup e with
      | none => rw [hl] at h; cases h
      | some s => rw [hl] at h; obtain rfl := Res.ok_inj h; rw [str_len]
    | _ => simp [docOf] at h
  | .obj ps fs, p, ty, d, h, hk => by
    cases ty with
    | named i =>
      rw [docOf] at h
      rw [SizeKnown] at hk
      rw [psize]
      cases hd : env.defs i with
      | cls c =>
        obtain ⟨⟨dps, ms, f⟩, name, field⟩ := c
        simp only [hd] at h hk ⊢
        obtain ⟨own, h1, h⟩ := Res.bind_ok h
        obtain ⟨up, h2, h⟩ := Res.bind_ok h
        obtain rfl := Res.ok_inj h
        obtain ⟨hk1, hk2, hk3⟩ := hk
        obtain ⟨n, e, hn⟩ := psizeOwn_doc fs f (.obj ps fs) ms own h1 hk2
        obtain ⟨n', e', hn'⟩ := psizeParents_doc ps dps up h2 hk3
        cases hp : info.pair i with
        | true =>
          simp only [hp, if_true] at hk1 ⊢
          obtain ⟨rfl, rfl, rfl, hm2, hne⟩ := hk1
          obtain ⟨e2, hl⟩ := psizePair_own env mk info fs (.obj ps fs) ms own.length n hne e
          have hup : up = [] := by
            cases ps with
            | nil => exact (Res.ok_inj h2).symm
            | cons _ _ => cases h2
          subst hup
          rw [e2, obj_len]
          simp only [Res.ok_bind, Option.isSome_none, Bool.false_eq_true, if_false, List.nil_append, List.append_nil, sizeMap]
          exact congrArg Res.ok (by omega)
        | false =>
          simp only [hp, if_false, Bool.false_eq_true] at hk1 ⊢
          rw [e, e']
          simp only [Res.ok_bind]
          have hc : (if info.virt i = true then p else field.isSome) = field.isSome := by
            rcases hk1 with hv | ⟨hv1, hv2⟩
            · simp [hv]
            · subst hv1 hv2; simp
          rw [hc, obj_len]
          cases field with
          | none =>
            simp only [Option.isSome_none, Bool.false_eq_true, if_false, List.nil_append, mlen_append, sizeMap]
            exact congrArg Res.ok (by omega)
          | some fn =>
            simp only [Option.isSome_some, if_true, mlen_append, List.cons_append, List.nil_append, mlen_cons, str_len, sizeMap]
            exact congrArg Res.ok (by omega)
      | _ => simp [hd] at h
    | _ => simp [docOf] at h
  | .dyn c v, p, ty, d, h, hk => by
    cases ty with
    | pptr b =>
      cases v with
      | obj ps fs =>
        rw [docOf] at h
        rw [SizeKnown] at hk
        rw [psize]
        cases hd : env.defs c with
        | cls cd =>
          obtain ⟨⟨dps, ms, f⟩, name, field⟩ := cd
          simp only [hd] at h hk ⊢
          obtain ⟨own, h1, h⟩ := Res.bind_ok h
          obtain ⟨up, h2, h⟩ := Res.bind_ok h
          obtain rfl := Res.ok_inj h
          obtain ⟨hk1, hk2, hk3, hk4⟩ := hk
          obtain ⟨n, e, hn⟩ := psizeOwn_doc fs f (.obj ps fs) ms own h1 hk3
          obtain ⟨n', e', hn'⟩ := psizeParents_doc ps dps up h2 hk4
          rw [e, e']
          simp only [Res.ok_bind, obj_len, mlen_append, mlen_cons, str_len, sizeMap]
          exact congrArg Res.ok (by omega)
        | _ => simp [hd] at h
      | _ => simp [docOf] at h
    | _ => simp [docOf] at h
  | .alt c v, p, ty, d, h, hk => by
    cases ty with
    | named i =>
      cases v with
      | obj ps fs =>
        rw [docOf] at h
        rw [SizeKnown] at hk
        rw [psize]
        cases hd : env.defs c with
        | cls cd =>
          obtain ⟨⟨dps, ms, f⟩, name, field⟩ := cd
          simp only [hd] at h hk ⊢
          obtain ⟨own, h1, h⟩ := Res.bind_ok h
          obtain ⟨up, h2, h⟩ := Res.bind_ok h
          obtain rfl := Res.ok_inj h
          obtain ⟨hk1, hk2, hk3, hk4, hk5⟩ := hk
          obtain ⟨n, e, hn⟩ := psizeOwn_doc fs f (.obj ps fs) ms own h1 hk4
          obtain ⟨n', e', hn'⟩ := psizeParents_doc ps dps up h2 hk5
          rw [e, e']
          simp only [hk1, hk3, Res.ok_bind, Bool.false_eq_true, if_false, if_true, obj_len, mlen_append, mlen_cons, str_len, sizeMap]
          exact congrArg Res.ok (by omega)
        | _ => simp [hd] at h
      | _ => simp [docOf] at h
    | _ => simp [docOf] at h
termination_by structural v => v
theorem psizeList_doc : ∀ (vs : List Val) (t : Ty) (ds : List Doc), docList env mk t vs = .ok ds → SizeKnownList env info t vs →
    ∃ n, psizeList env mk info t vs = .ok n ∧ ds.length = vs.length ∧ ∀ i, elen i ds + keyLengths i = vs.length * 2 + keyLengths (i + vs.length) + n
  | [], t, ds, h, hk => by
    obtain rfl := Res.ok_inj h
    exact ⟨0, rfl, rfl, fun i => by simp [elen, btree.elems, bpayload.elems]⟩
  | v :: vs, t, ds, h, hk => by
    rw [docList] at h
    obtain ⟨a, h1, h⟩ := Res.bind_ok h
    obtain ⟨b, h2, h⟩ := Res.bind_ok h
    obtain rfl := Res.ok_inj h
    obtain ⟨n, e, hl, hn⟩ := psizeList_doc vs t b h2 hk.2
    refine ⟨(bpayload (btree a)).length + n, ?_, by simp [hl], ?_⟩
    · rw [psizeList, psize_doc v false t a h1 hk.1, e]; rfl
    · intro i
      have := hn (i + 1)
      rw [keyLengths_succ] at this
      rw [elen_cons, List.length_cons, show i + (vs.length + 1) = i + 1 + vs.length by omega]
      omega
termination_by structural vs => vs
theorem psizeTuple_doc : ∀ (vs : List Val) (ts : List Ty) (ds : List Doc), docTuple env mk ts vs = .ok ds → SizeKnownTuple env info ts vs →
    ∃ n, psizeTuple env mk info ts vs = .ok n ∧ ds.length = ts.length ∧ ∀ i, elen i ds + keyLengths i = ts.length * 2 + keyLengths (i + ts.length) + n
  | [], [], ds, h, hk => by
    obtain rfl := Res.ok_inj h
    exact ⟨0, rfl, rfl, fun i => by simp [elen, btree.elems, bpayload.elems]⟩
  | [], _ :: _, ds, h, hk => by cases h
  | _ :: _, [], ds, h, hk => by cases h
  | v :: vs, t :: ts, ds, h, hk => by
    rw [docTuple] at h
    obtain ⟨a, h1, h⟩ := Res.bind_ok h
    obtain ⟨b, h2, h⟩ := Res.bind_ok h
    obtain rfl := Res.ok_inj h
    obtain ⟨n, e, hl, hn⟩ := psizeTuple_doc vs ts b h2 hk.2
    refine ⟨(bpayload (btree a)).length + n, ?_, by simp [hl], ?_⟩
    · rw [psizeTuple, psize_doc v false t a h1 hk.1, e]; rfl
    · intro i
      have := hn (i + 1)
      rw [keyLengths_succ] at this
      rw [elen_cons, List.length_cons, show i + (ts.length + 1) = i + 1 + ts.length by omega]
      omega
termination_by structural vs => vs
theorem psizeDict_doc : ∀ (kvs : List (Bytes × Val)) (t : Ty) (ds : List (Bytes × Doc)), docDict env mk t kvs = .ok ds → SizeKnownDict env info t kvs →
    ∃ n, psizeDict env mk info t kvs = .ok n ∧ mlen ds = kvs.length * 2 + n
  | [], t, ds, h, hk => by
    obtain rfl := Res.ok_inj h
    exact ⟨0, rfl, rfl⟩
  | (k, v) :: kvs, t, ds, h, hk => by
    rw [docDict] at h
    obtain ⟨a, h1, h⟩ := Res.bind_ok h
    obtain ⟨b, h2, h⟩ := Res.bind_ok h
    obtain rfl := Res.ok_inj h
    obtain ⟨n, e, hn⟩ := psizeDict_doc kvs t b h2 hk.2
    refine ⟨k.length + (bpayload (btree a)).length + n, ?_, ?_⟩
    · rw [psizeDict, psize_doc v false t a h1 hk.1, e]; rfl
    · rw [mlen_cons, List.length_cons]; omega
termination_by structural vs => vs
theorem psizeOwn_doc : ∀ (vs : List Val) (f : Option (Val → Bytes → Bool)) (self : Val) (ms : List Member) (ds : List (Bytes × Doc)),
    docOwn env mk f self ms vs = .ok ds → SizeKnownOwn env info ms vs →
    ∃ n, psizeOwn env mk info f self ms vs = .ok (ds.length, n) ∧ mlen ds = ds.length * 2 + n
  | [], f, self, [], ds, h, hk => by
    obtain rfl := Res.ok_inj h
    exact ⟨0, rfl, rfl⟩
  | [], f, self, _ :: _, ds, h, hk => by cases h
  | _ :: _, f, self, [], ds, h, hk => by cases h
  | v :: vs, f, self, m :: ms, ds, h, hk => by
    rw [docOwn] at h
    rw [psizeOwn]
    by_cases hs : shown f self m v
    · rw [if_pos hs] at h
      rw [if_pos ((keep_iff f self m v).2 hs)]
      obtain ⟨a, h1, h⟩ := Res.bind_ok h
      obtain ⟨b, h2, h⟩ := Res.bind_ok h
      obtain rfl := Res.ok_inj h
      obtain ⟨n, e, hn⟩ := psizeOwn_doc vs f self ms b h2 hk.2
      refine ⟨m.out.length + (bpayload (btree a)).length + n, ?_, ?_⟩
      · rw [psize_doc v false m.ty a h1 hk.1, e]
        simp only [Res.ok_bind, List.length_cons, Nat.add_comm 1]
        rfl
      · rw [mlen_cons, List.length_cons]; omega
    · rw [if_neg hs] at h
      rw [if_neg (fun h => hs ((keep_iff f self m v).1 h))]
      exact psizeOwn_doc vs f self ms ds h hk.2
termination_by structural vs => vs
theorem psizeParents_doc : ∀ (vs : List Val) (ds : List StructDef) (dd : List (Bytes × Doc)),
    docParents env mk ds vs = .ok dd → SizeKnownParents env info ds vs →
    ∃ n, psizeParents env mk info ds vs = .ok (dd.length, n) ∧ mlen dd = dd.length * 2 + n
  | [], [], dd, h, hk => by
    obtain rfl := Res.ok_inj h
    exact ⟨0, rfl, rfl⟩
  | [], .mk _ _ _ :: _, dd, h, hk => by cases h
  | _ :: _, [], dd, h, hk => by cases h
  | .obj ps fs :: vs, .mk dps ms f :: ds, dd, h, hk => by
    rw [docParents] at h
    obtain ⟨own, h1, h⟩ := Res.bind_ok h
    obtain ⟨up, h2, h⟩ := Res.bind_ok h
    obtain ⟨b, h3, h⟩ := Res.bind_ok h
    obtain rfl := Res.ok_inj h
    obtain ⟨hk1, hk2, hk3⟩ := hk
    obtain ⟨n, e, hn⟩ := psizeOwn_doc fs f (.obj ps fs) ms own h1 hk1
    obtain ⟨n', e', hn'⟩ := psizeParents_doc ps dps up h2 hk2
    obtain ⟨n'', e'', hn''⟩ := psizeParents_doc vs ds b h3 hk3
    refine ⟨n + n' + n'', ?_, ?_⟩
    · rw [psizeParents, e, e', e'']
      simp [Nat.add_assoc]
    · simp only [mlen_append, List.length_append]; omega
  | .int _ :: _, .mk _ _ _ :: _, _, h, _ => by cases h
  | .flt _ :: _, .mk _ _ _ :: _, _, h, _ => by cases h
  | .bool _ :: _, .mk _ _ _ :: _, _, h, _ => by cases h
  | .str _ :: _, .mk _ _ _ :: _, _, h, _ => by cases h
  | .enum _ :: _, .mk _ _ _ :: _, _, h, _ => by cases h
  | .list _ :: _, .mk _ _ _ :: _, _, h, _ => by cases h
  | .dict _ :: _, .mk _ _ _ :: _, _, h, _ => by cases h
  | .none :: _, .mk _ _ _ :: _, _, h, _ => by cases h
  | .some _ :: _, .mk _ _ _ :: _, _, h, _ => by cases h
  | .null :: _, .mk _ _ _ :: _, _, h, _ => by cases h
  | .ptr _ :: _, .mk _ _ _ :: _, _, h, _ => by cases h
  | .dyn _ _ :: _, .mk _ _ _ :: _, _, h, _ => by cases h
  | .alt _ _ :: _, .mk _ _ _ :: _, _, h, _ => by cases h
termination_by structural vs => vs
end

/-! ### The calls, with their sizes -/

/-- The size of a document. -/
def dlen (d : Doc) : Nat := (bpayload (btree d)).length

/-- The calls for a document, with the sizes of the containers. -/
def scmds : Doc → List Cmd
  | .scalar a => [atomCmd a]
  | .arr ts => .openArray (dlen (.arr ts)) :: elems ts ++ [.closeArray]
  | .obj ms => .openMap (dlen (.obj ms)) :: members ms ++ [.closeMap]
where
  elems : List Doc → List Cmd
  | [] => []
  | t :: ts => scmds t ++ elems ts
  members : List (Bytes × Doc) → List Cmd
  | [] => []
  | (k, t) :: ms => .addKey k :: scmds t ++ members ms

theorem scmds.members_append (a b : List (Bytes × Doc)) : scmds.members (a ++ b) = scmds.members a ++ scmds.members b := by
  induction a with
  | nil => rfl
  | cons m a ih => obtain ⟨k, t⟩ := m; simp [scmds.members, ih]

/-- `getPrintSize` of the BSON printer. -/
abbrev bsz : Ty → Val → Bool → Res Nat := fun t w p => psize env mk info p t w

/-- The size computed for an object with the class name first. -/
theorem psize_poly {c : Nat} {dps : List StructDef} {ms : List Member} {f : Option (Val → Bytes → Bool)} {name : Bytes} {field : Option Bytes} {ps fs : List Val}
    (hd : env.defs c = .cls ⟨.mk dps ms f, name, field⟩) (hp : info.pair c = false) (hv : (if info.virt c = true then true else field.isSome) = true)
    {own up : List (Bytes × Doc)} {n n' : Nat} (e : psizeOwn env mk info f (.obj ps fs) ms fs = .ok (own.length, n)) (hn : mlen own = own.length * 2 + n)
    (e' : psizeParents env mk info dps ps = .ok (up.length, n')) (hn' : mlen up = up.length * 2 + n') :
    psize env mk info true (.named c) (.obj ps fs) = .ok (dlen (.obj ((polyMarker env mk c, .scalar (.str name)) :: (own ++ up)))) := by
  rw [psize, hd]
  simp only [hp, e, e', Res.ok_bind, hv, Bool.false_eq_true, if_false, if_true]
  rw [dlen, obj_len]
  simp only [mlen_append, mlen_cons, str_len, sizeMap]
  exact congrArg Res.ok (by omega)

mutual
theorem ser_sized : ∀ (v : Val) (ty : Ty) (p : Bool) (d : Doc), docOf env mk ty v = .ok d → SizeKnown env info p ty v →
    ser env mk (bsz env mk info) ty v = .ok (scmds d)
  | .int i, ty, p, d, h, hk => by
    cases ty <;> simp [docOf] at h
    subst h; rfl
  | .flt x, ty, p, d, h, hk => by
    cases ty <;> simp [docOf] at h
    subst h; rfl
  | .bool b, ty, p, d, h, hk => by
    cases ty <;> simp [docOf] at h
    subst h; rfl
  | .str s, ty, p, d, h, hk => by
    cases ty <;> simp [docOf] at h
    subst h; rfl
  | .none, ty, p, d, h, hk => by cases ty <;> simp [docOf, throwStd] at h
  | .null, ty, p, d, h, hk => by
    cases ty <;> simp [docOf] at h <;> subst h <;> rfl
  | .some v, ty, p, d, h, hk => by
    cases ty <;> simp [docOf] at h
    rw [ser]; exact ser_sized v _ p d h hk
  | .ptr v, ty, p, d, h, hk => by
    cases ty <;> simp [docOf] at h
    rw [ser]; exact ser_sized v _ true d h hk
  | .list vs, ty, p, d, h, hk => by
    cases ty with
    | seq k t =>
      have hz := psize_doc env mk info (.list vs) false (.seq k t) d h hk
      rw [docOf] at h
      obtain ⟨ds, h1, h2⟩ := Res.bind_ok h
      obtain rfl := Res.ok_inj h2
      rw [ser, bsz, hz, serList_sized vs t ds h1 hk]
      rfl
    | arr m t =>
      have hz := psize_doc env mk info (.list vs) false (.arr m t) d h hk
      rw [docOf] at h
      obtain ⟨ds, h1, h2⟩ := Res.bind_ok h
      obtain rfl := Res.ok_inj h2
      rw [ser, bsz, hz, serList_sized vs t ds h1 hk]
      rfl
    | named i =>
      have hz := psize_doc env mk info (.list vs) false (.named i) d h hk
      rw [docOf] at h
      rw [SizeKnown] at hk
      rw [ser]
      cases hd : env.defs i <;> simp only [hd] at h hk ⊢ <;> try (cases h; done)
      rename_i ts
      obtain ⟨ds, h1, h2⟩ := Res.bind_ok h
      obtain rfl := Res.ok_inj h2
      rw [bsz, hz, serTuple_sized vs ts ds h1 hk]
      rfl
    | _ => simp [docOf] at h
  | .dict kvs, ty, p, d, h, hk => by
    cases ty with
    | smap t | mmap t | umap t =>
      have hz := psize_doc env mk info (.dict kvs) false _ d h hk
      rw [docOf] at h
      obtain ⟨ds, h1, h2⟩ := Res.bind_ok h
      obtain rfl := Res.ok_inj h2
      rw [ser, bsz, hz, serDict_sized kvs t ds h1 hk]
      rfl
    | _ => simp [docOf] at h
  | .enum e, ty, p, d, h, hk => by
    cases ty with
    | named i =>
      rw [docOf] at h
      rw [ser]
      cases hd : env.defs i <;> simp only [hd] at h ⊢ <;> try (cases h; done)
      rename_i table
      simp only [enumName]
      cases hl : table.lookup e with
      | none => rw [hl] at h; cases h
      | some s => rw [hl] at h; obtain rfl := Res.ok_inj h; rfl
    | _ => simp [docOf] at h
  | .obj ps fs, ty, p, d, h, hk => by
    cases ty with
    | named i =>
      have hk' : SizeKnown env info false (.named i) (.obj ps fs) := by
        rw [SizeKnown] at hk ⊢
        cases hd : env.defs i with
        | cls c =>
          obtain ⟨⟨dps, ms, f⟩, name, field⟩ := c
          simp only [hd] at hk ⊢
          refine ⟨?_, hk.2⟩
          have := hk.1
          split at this
          · rename_i hp; rw [if_pos hp]; exact this
          · rename_i hp
            rw [if_neg hp]
            exact this.elim .inl (fun h => .inr ⟨trivial, h.2⟩)
        | _ => trivial
      have hz := psize_doc env mk info (.obj ps fs) false (.named i) d h hk'
      rw [docOf] at h
      rw [SizeKnown] at hk
      rw [ser]
      cases hd : env.defs i with
      | cls c =>
        obtain ⟨⟨dps, ms, f⟩, name, field⟩ := c
        simp only [hd] at h hk ⊢
        obtain ⟨own, h1, h⟩ := Res.bind_ok h
        obtain ⟨up, h2, h⟩ := Res.bind_ok h
        obtain rfl := Res.ok_inj h
        obtain ⟨hk1, hk2, hk3⟩ := hk
        rw [bsz, hz, serOwn_sized fs f (.obj ps fs) ms own h1 hk2, serParents_sized ps dps up h2 hk3]
        cases field <;> simp [inMap, scmds, scmds.members_append, scmds.members, atomCmd, dlen]
      | _ => simp [hd] at h
    | _ => simp [docOf] at h
  | .dyn c v, ty, p, d, h, hk => by
    cases ty with
    | pptr b =>
      cases v with
      | obj ps fs =>
        rw [docOf] at h
        rw [SizeKnown] at hk
        rw [ser]
        cases hd : env.defs c with
        | cls cd =>
          obtain ⟨⟨dps, ms, f⟩, name, field⟩ := cd
          simp only [hd] at h hk ⊢
          obtain ⟨own, h1, h⟩ := Res.bind_ok h
          obtain ⟨up, h2, h⟩ := Res.bind_ok h
          obtain rfl := Res.ok_inj h
          obtain ⟨hk1, hk2, hk3, hk4⟩ := hk
          obtain ⟨n, e, hn⟩ := psizeOwn_doc env mk info fs f (.obj ps fs) ms own h1 hk3
          obtain ⟨n', e', hn'⟩ := psizeParents_doc env mk info ps dps up h2 hk4
          rw [bsz, psize_poly env mk info hd hk2 (by simp [hk1]) e hn e' hn', serOwn_sized fs f (.obj ps fs) ms own h1 hk3,
            serParents_sized ps dps up h2 hk4]
          simp [inMap, scmds, scmds.members_append, scmds.members, atomCmd, dlen]
        | _ => simp [hd] at h
      | _ => simp [docOf] at h
    | _ => simp [docOf] at h
  | .alt c v, ty, p, d, h, hk => by
    cases ty with
    | named i =>
      cases v with
      | obj ps fs =>
        rw [docOf] at h
        rw [SizeKnown] at hk
        rw [ser]
        cases hd : env.defs c with
        | cls cd =>
          obtain ⟨⟨dps, ms, f⟩, name, field⟩ := cd
          simp only [hd] at h hk ⊢
          obtain ⟨own, h1, h⟩ := Res.bind_ok h
          obtain ⟨up, h2, h⟩ := Res.bind_ok h
          obtain rfl := Res.ok_inj h
          obtain ⟨hk1, hk2, hk3, hk4, hk5⟩ := hk
          obtain ⟨n, e, hn⟩ := psizeOwn_doc env mk info fs f (.obj ps fs) ms own h1 hk4
          obtain ⟨n', e', hn'⟩ := psizeParents_doc env mk info ps dps up h2 hk5
          rw [bsz, psize_poly env mk info hd hk2 (by simp [hk1, hk3]) e hn e' hn', serOwn_sized fs f (.obj ps fs) ms own h1 hk4,
            serParents_sized ps dps up h2 hk5]
          simp [inMap, scmds, scmds.members_append, scmds.members, atomCmd, dlen]
        | _ => simp [hd] at h
      | _ => simp [docOf] at h
    | _ => simp [docOf] at h
termination_by structural v => v
theorem serList_sized : ∀ (vs : List Val) (t : Ty) (ds : List Doc), docList env mk t vs = .ok ds → SizeKnownList env info t vs →
    serList env mk (bsz env mk info) t vs = .ok (scmds.elems ds)
  | [], t, ds, h, hk => by
    obtain rfl := Res.ok_inj h
    rfl
  | v :: vs, t, ds, h, hk => by
    rw [docList] at h
    obtain ⟨a, h1, h⟩ := Res.bind_ok h
    obtain ⟨b, h2, h⟩ := Res.bind_ok h
    obtain rfl := Res.ok_inj h
    rw [serList, ser_sized v t false a h1 hk.1, serList_sized vs t b h2 hk.2]
    rfl
termination_by structural vs => vs
theorem serTuple_sized : ∀ (vs : List Val) (ts : List Ty) (ds : List Doc), docTuple env mk ts vs = .ok ds → SizeKnownTuple env info ts vs →
    serTuple env mk (bsz env mk info) ts vs = .ok (scmds.elems ds)
  | [], [], ds, h, hk => by
    obtain rfl := Res.ok_inj h
    rfl
  | [], _ :: _, ds, h, hk => by cases h
  | _ :: _, [], ds, h, hk => by cases h
  | v :: vs, t :: ts, ds, h, hk => by
    rw [docTuple] at h
    obtain ⟨a, h1, h⟩ := Res.bind_ok h
    obtain ⟨b, h2, h⟩ := Res.bind_ok h
    obtain rfl := Res.ok_inj h
    rw [serTuple, ser_sized v t false a h1 hk.1, serTuple_sized vs ts b h2 hk.2]
    rfl
termination_by structural vs => vs
theorem serDict_sized : ∀ (kvs : List (Bytes × Val)) (t : Ty) (ds : List (Bytes × Doc)), docDict env mk t kvs = .ok ds → SizeKnownDict env info t kvs →
    serDict env mk (bsz env mk info) t kvs = .ok (scmds.members ds)
  | [], t, ds, h, hk => by
    obtain rfl := Res.ok_inj h
    rfl
  | (k, v) :: kvs, t, ds, h, hk => by
    rw [docDict] at h
    obtain ⟨a, h1, h⟩ := Res.bind_ok h
    obtain ⟨b, h2, h⟩ := Res.bind_ok h
    obtain rfl := Res.ok_inj h
    rw [serDict, ser_sized v t false a h1 hk.1, serDict_sized kvs t b h2 hk.2]
    rfl
termination_by structural vs => vs
theorem serOwn_sized : ∀ (vs : List Val) (f : Option (Val → Bytes → Bool)) (self : Val) (ms : List Member) (ds : List (Bytes × Doc)),
    docOwn env mk f self ms vs = .ok ds → SizeKnownOwn env info ms vs → serOwn env mk (bsz env mk info) f self ms vs = .ok (scmds.members ds)
  | [], f, self, [], ds, h, hk => by
    obtain rfl := Res.ok_inj h
    rfl
  | [], f, self, _ :: _, ds, h, hk => by cases h
  | _ :: _, f, self, [], ds, h, hk => by cases h
  | v :: vs, f, self, m :: ms, ds, h, hk => by
    rw [docOwn] at h
    rw [serOwn]
    by_cases hs : shown f self m v
    · rw [if_pos hs] at h
      rw [if_pos ((keep_iff f self m v).2 hs)]
      obtain ⟨a, h1, h⟩ := Res.bind_ok h
      obtain ⟨b, h2, h⟩ := Res.bind_ok h
      obtain rfl := Res.ok_inj h
      rw [ser_sized v m.ty false a h1 hk.1, serOwn_sized vs f self ms b h2 hk.2]
      rfl
    · rw [if_neg hs] at h
      rw [if_neg (fun h => hs ((keep_iff f self m v).1 h))]
      exact serOwn_sized vs f self ms ds h hk.2
termination_by structural vs => vs
theorem serParents_sized : ∀ (vs : List Val) (ds : List StructDef) (dd : List (Bytes × Doc)),
    docParents env mk ds vs = .ok dd → SizeKnownParents env info ds vs → serParents env mk (bsz env mk info) ds vs = .ok (scmds.members dd)
  | [], [], dd, h, hk => by
    obtain rfl := Res.ok_inj h
    rfl
  | [], .mk _ _ _ :: _, dd, h, hk => by cases h
  | _ :: _, [], dd, h, hk => by cases h
  | .obj ps fs :: vs, .mk dps ms f :: ds, dd, h, hk => by
    rw [docParents] at h
    obtain ⟨own, h1, h⟩ := Res.bind_ok h
    obtain ⟨up, h2, h⟩ := Res.bind_ok h
    obtain ⟨b, h3, h⟩ := Res.bind_ok h
    obtain rfl := Res.ok_inj h
    obtain ⟨hk1, hk2, hk3⟩ := hk
    rw [serParents, serOwn_sized fs f (.obj ps fs) ms own h1 hk1, serParents_sized ps dps up h2 hk2, serParents_sized vs ds b h3 hk3]
    simp [scmds.members_append]
  | .int _ :: _, .mk _ _ _ :: _, _, h, _ => by cases h
  | .flt _ :: _, .mk _ _ _ :: _, _, h, _ => by cases h
  | .bool _ :: _, .mk _ _ _ :: _, _, h, _ => by cases h
  | .str _ :: _, .mk _ _ _ :: _, _, h, _ => by cases h
  | .enum _ :: _, .mk _ _ _ :: _, _, h, _ => by cases h
  | .list _ :: _, .mk _ _ _ :: _, _, h, _ => by cases h
  | .dict _ :: _, .mk _ _ _ :: _, _, h, _ => by cases h
  | .none :: _, .mk _ _ _ :: _, _, h, _ => by cases h
  | .some _ :: _, .mk _ _ _ :: _, _, h, _ => by cases h
  | .null :: _, .mk _ _ _ :: _, _, h, _ => by cases h
  | .ptr _ :: _, .mk _ _ _ :: _, _, h, _ => by cases h
  | .dyn _ _ :: _, .mk _ _ _ :: _, _, h, _ => by cases h
  | .alt _ _ :: _, .mk _ _ _ :: _, _, h, _ => by cases h
termination_by structural vs => vs
end
end

/-! ### The bytes -/

theorem bytesOf_append (a b : List Write) : bytesOf (a ++ b) = bytesOf a ++ bytesOf b := bytesIn_append a b

theorem bson_run_append (a b : List Cmd) : ∀ s, run (a ++ b) s = (do
    let (x, s) ← run a s
    let (y, s) ← run b s
    return (x ++ y, s)) := by
  induction a with
  | nil => intro s; simp only [run, List.nil_append, Res.ok_bind]; cases hb : run b s <;> rfl
  | cons c a ih =>
    intro s
    simp only [run, List.cons_append]
    cases h : step c s with
    | ok x =>
      obtain ⟨x, s1⟩ := x
      simp only [Res.ok_bind, ih]
      cases run a s1 with
      | ok y =>
        obtain ⟨y, s2⟩ := y
        simp only [Res.ok_bind, Res.pure_eq]
        cases hb : run b s2 with
        | ok z => simp [hb]
        | throw e => simp [hb]
        | ub => simp [hb]
      | _ => rfl
    | _ => rfl

/-- The state `s` writes the header `hdr` for the next element, and goes on with `s1`. -/
def Heads (s : St) (hdr : Bytes) (s1 : St) : Prop := ∀ type size, ∃ ws, writeKey type size s = .ok (ws, s1) ∧ bytesOf ws = type :: hdr ++ [0x00]

theorem heads_array (cs : List BCont) (i : Nat) (is : List Nat) (key : Bytes) :
    Heads ⟨.Array :: cs, i :: is, key⟩ (decimal i) ⟨.Array :: cs, (i + 1) :: is, key⟩ := by
  intro type size
  exact ⟨_, rfl, by simp [bytesOf, Write.bytesIn, bytesIn, natText_decimal]⟩

theorem heads_map (cs : List BCont) (is : List Nat) (key : Bytes) : Heads ⟨.Map :: cs, is, key⟩ key ⟨.Map :: cs, is, key⟩ := by
  intro type size
  exact ⟨_, rfl, by simp [bytesOf, Write.bytesIn, bytesIn]⟩

theorem escape_clean {s : Bytes} (h : cleanKey s) : escapeString s = s := by
  have : ∀ chunk, escapeLoop chunk s = [chunk ++ s] := by
    induction s with
    | nil => intro chunk; simp [escapeLoop]
    | cons c s ih =>
      intro chunk
      have hc := h c (by simp)
      have he : isEscape c = false := by
        simp only [isEscape, decide_eq_false_iff_not]
        rintro (h1 | h1 | h1)
        · omega
        · exact hc.2.1 h1
        · exact hc.2.2 h1
      rw [escapeLoop, he, if_neg (by simp), ih (fun x hx => h x (by simp [hx]))]
      simp
  simp [escapeString, escapeWrites, this []]

/-- The body of an element as the printer writes it. -/
def atomBody : Atom → List Write
  | .null => []
  | .bool b => [.chars [if b then 0x01 else 0x00]]
  | .int k i => [.chars (leBytes (intWidth k) i)]
  | .flt f x => [.chars (leBytes 8 (doubleBits (castFlt f f64 x) : Nat))]
  | .str t => .chars (leBytes 4 ((escapeString t).length + 1 : Nat)) :: ((escapeWrites t).map .chars ++ [.chars [0x00]])

theorem leBytes_mod : ∀ (n : Nat) (v w : Int), v % 256 ^ n = w % 256 ^ n → leBytes n v = leBytes n w
  | 0, _, _, _ => rfl
  | n + 1, v, w, h => by
    have hp : (256 : Int) ^ (n + 1) = 256 * 256 ^ n := by rw [Int.pow_succ, Int.mul_comm]
    rw [hp] at h
    have h1 : v % 256 = w % 256 := by
      rw [← Int.emod_emod_of_dvd v (Int.dvd_mul_right 256 (256 ^ n)), h, Int.emod_emod_of_dvd w (Int.dvd_mul_right 256 (256 ^ n))]
    have h2 : v / 256 % 256 ^ n = w / 256 % 256 ^ n := by
      obtain ⟨k, hk⟩ := Int.dvd_of_emod_eq_zero (Int.emod_eq_emod_iff_emod_sub_eq_zero.1 h)
      rw [Int.mul_assoc] at hk
      rw [show v = w + 256 * (256 ^ n * k) by omega, Int.add_mul_ediv_left _ _ (by decide), Int.add_mul_emod_self_left]
    rw [leBytes, leBytes, h1, leBytes_mod n _ _ h2]

theorem signed64_le (i : Int) : leBytes 8 (signed64 i) = leBytes 8 i := by
  apply leBytes_mod
  unfold signed64
  omega

theorem signed32_le (i : Int) : leBytes 4 (signed32 i) = leBytes 4 i := by
  apply leBytes_mod
  unfold signed32
  omega

theorem atomBody_bytes (a : Atom) (h : plainAtom a) : bytesOf (atomBody a) = (bscalar a).payload := by
  cases a with
  | null => rfl
  | bool b => rfl
  | int k i =>
    simp only [atomBody, bscalar, intWidth, bytesOf]
    split
    · simp [BScalar.payload, Write.bytesIn, ← leBytes_eq_le, signed64_le]
    · simp [BScalar.payload, Write.bytesIn, ← leBytes_eq_le, signed32_le]
  | flt f x => simp [atomBody, bscalar, bytesOf, Write.bytesIn, bytesIn, BScalar.payload, ← leBytes_eq_le]
  | str s =>
    have h1 : bytesOf ((escapeWrites s).map .chars) = _ := escapeWrites_bytes (ft := streamText) s
    have h2 := escape_clean (s := s) h
    have : bytesOf (atomBody (.str s)) = leBytes 4 ((escapeString s).length + 1 : Nat) ++ bytesOf ((escapeWrites s).map .chars) ++ [0x00] := by
      simp [atomBody, bytesOf, Write.bytesIn, bytesIn]
    rw [this, h1, h2, leBytes_eq_le]
    rfl

theorem bson_step_atom (a : Atom) (s : St) : step (atomCmd a) s = element (bscalar a).code (atomBody a) s := by
  cases a with
  | int k i =>
    simp only [atomCmd, step, bscalar, atomBody, intWidth]
    by_cases h : k.bits = 64
    · simp [h, BScalar.code]
    · simp [h, BScalar.code]
  | _ => rfl

theorem run_atom (a : Atom) (h : plainAtom a) {s s1 : St} {hdr : Bytes} (hh : Heads s hdr s1) :
    ∃ ws, run [atomCmd a] s = .ok (ws, s1) ∧ bytesOf ws = (bscalar a).code :: hdr ++ [0x00] ++ (bscalar a).payload := by
  obtain ⟨ws, e, hb⟩ := hh (bscalar a).code (some (bytesOf (atomBody a)).length)
  refine ⟨ws ++ atomBody a, ?_, ?_⟩
  · simp only [run, bson_step_atom, element, e, Res.ok_bind]
    simp
  · rw [bytesOf_append, hb, atomBody_bytes a h]

mutual
theorem run_scmds : ∀ (d : Doc) (s s1 : St) (hdr : Bytes), AllScalars plainAtom d → Heads s hdr s1 →
    ∃ ws key, run (scmds d) s = .ok (ws, { s1 with key := key }) ∧ bytesOf ws = btype (btree d) :: hdr ++ [0x00] ++ bpayload (btree d)
  | .scalar a, s, s1, hdr, ha, hh => by
    obtain ⟨ws, e, hb⟩ := run_atom a ha hh
    exact ⟨ws, s1.key, e, hb⟩
  | .arr ts, s, s1, hdr, ha, hh => by
    obtain ⟨ws, e, hb⟩ := hh 0x04 none
    obtain ⟨ws2, key, e2, hb2⟩ := bson_elems ts s1.conts 0 s1.idx s1.key ha
    refine ⟨ws ++ [.chars (leBytes 4 (dlen (.arr ts)))] ++ (ws2 ++ [.chars [0x00]]), key, ?_, ?_⟩
    · simp only [scmds, List.cons_append, run, step, e, Res.ok_bind, bson_run_append]
      simp [run, step, e2]
    · simp only [bytesOf_append, hb, hb2, btree, btype, bpayload, framed]
      rw [dlen, arr_len, leBytes_eq_le]
      simp [bytesOf, Write.bytesIn, bytesIn, elen]
  | .obj ms, s, s1, hdr, ha, hh => by
    obtain ⟨ws, e, hb⟩ := hh 0x03 none
    obtain ⟨ws2, key, e2, hb2⟩ := bson_members ms s1.conts s1.idx s1.key ha
    refine ⟨ws ++ [.chars (leBytes 4 (dlen (.obj ms)))] ++ (ws2 ++ [.chars [0x00]]), key, ?_, ?_⟩
    · simp only [scmds, List.cons_append, run, step, e, Res.ok_bind, bson_run_append]
      simp [run, step, e2]
    · simp only [bytesOf_append, hb, hb2, btree, btype, bpayload, framed]
      rw [dlen, obj_len, leBytes_eq_le]
      simp [bytesOf, Write.bytesIn, bytesIn, mlen]
theorem bson_elems : ∀ (ts : List Doc) (cs : List BCont) (i : Nat) (is : List Nat) (k : Bytes), AllScalars.elems plainAtom ts →
    ∃ ws key, run (scmds.elems ts) ⟨.Array :: cs, i :: is, k⟩ = .ok (ws, ⟨.Array :: cs, (i + ts.length) :: is, key⟩) ∧
      bytesOf ws = bpayload.elems i (btree.elems ts)
  | [], cs, i, is, k, ha => ⟨[], k, rfl, rfl⟩
  | t :: ts, cs, i, is, k, ha => by
    obtain ⟨ws, key, e, hb⟩ := run_scmds t _ _ _ ha.1 (heads_array cs i is k)
    obtain ⟨ws2, key2, e2, hb2⟩ := bson_elems ts cs (i + 1) is key ha.2
    refine ⟨ws ++ ws2, key2, ?_, ?_⟩
    · simp only [scmds.elems, bson_run_append, e, Res.ok_bind, e2]
      rw [show i + 1 + ts.length = i + (t :: ts).length by simp; omega]
      rfl
    · rw [bytesOf_append, hb, hb2]; rfl
theorem bson_members : ∀ (ms : List (Bytes × Doc)) (cs : List BCont) (is : List Nat) (k : Bytes), AllScalars.members plainAtom ms →
    ∃ ws key, run (scmds.members ms) ⟨.Map :: cs, is, k⟩ = .ok (ws, ⟨.Map :: cs, is, key⟩) ∧
      bytesOf ws = bpayload.members (btree.members ms)
  | [], cs, is, k, ha => ⟨[], k, rfl, rfl⟩
  | (n, t) :: ms, cs, is, k, ha => by
    obtain ⟨ws, key, e, hb⟩ := run_scmds t _ _ _ ha.1 (heads_map cs is n)
    obtain ⟨ws2, key2, e2, hb2⟩ := bson_members ms cs is key ha.2
    refine ⟨ws ++ ws2, key2, ?_, ?_⟩
    · simp only [scmds.members, List.cons_append, run, step, bson_run_append, e, Res.ok_bind, e2]
      simp [e, e2]
    · rw [bytesOf_append, hb, hb2]; rfl
end

end Thors
