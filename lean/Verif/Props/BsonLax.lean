import Verif.Proofs.BsonSTrack
import Verif.Props.Bson
import Verif.Props.BsonStream
/-
C108: what an import reports as read is BSON.
-/
namespace Thors.Props
open Spec StrIn

/-- C108, proved part, strings. Whenever an import of bytes, any bytes (shorter than 2^63), into a value of any type succeeds, the bytes begin with a document of the
BSON grammar: the length in front of every document and array is its length, each is terminated by NUL, every element has a type byte, a key that ends with NUL, and a
payload of the length that belongs to the type. In Weak mode: for bytes below 0x80. Missing: the rules for scalars and for the keys of arrays are laxer than the standard's,
see `blax` (Spec/BsonGrammar.lean) and `C108_false`; in Weak mode a string with a negative length can be skipped (`C108_false_weak`). -/
theorem C108_strings_partial (env : Env) (cfg : Cfg) (ty : Ty) (old v : Val) (t : Bytes) (hl : t.length < 2 ^ 63) (ha : cfg.strict = .Weak → ∀ b ∈ t, b.toNat < 128)
    (h : bsonImport env cfg ty old t = .ok v) :
    ∃ u rest, t = u ++ rest ∧ (blax (Occurs env ty) (cfg.strict = .Weak)).Doc (bsonBase env ty) u := by
  obtain ⟨⟨w, p⟩, h1, -⟩ := Res.bind_eq_ok.1 h
  obtain ⟨u, hu, -, -, post, hp⟩ := BTrk.import_lax env cfg ty old t hl ha _ h1
  exact ⟨u, post, hp, hu⟩

/-- C108, proved part, streams: the same of what is behind the position of the stream, which is left behind the last byte of the document. -/
theorem C108_streams_partial (env : Env) (cfg : Cfg) (ty : Ty) (old v : Val) (i i' : IStr) (hi : i.pos ≤ i.data.length) (hl : i.data.length < 2 ^ 63)
    (ha : cfg.strict = .Weak → ∀ b ∈ i.data, b.toNat < 128) (h : bsonStreamImport env cfg ty old i = .ok (v, i')) :
    ∃ u rest, i.data.drop i.pos = u ++ rest ∧ (blax (Occurs env ty) (cfg.strict = .Weak)).Doc (bsonBase env ty) u ∧ i'.data = i.data ∧ i'.pos = i.pos + u.length := by
  obtain ⟨⟨w, p⟩, h1, h2⟩ := Res.bind_eq_ok.1 h
  cases h2
  obtain ⟨u, hu, hd, hpos, post, hp⟩ := STrk.import_lax env cfg ty old i hi hl ha _ h1
  have hlen : (i.data.take i.pos).length = i.pos := by simp; omega
  refine ⟨u, post, ?_, hu, hd, by rw [hpos, List.length_append, hlen]⟩
  have := congrArg (List.drop i.pos) hp
  rw [this, List.append_assoc]
  conv => lhs; arg 1; rw [← hlen]
  rw [List.drop_left]

/-! ### the grammar -/

theorem members_snoc_bytes (k : Bytes) (t : BTree) : ∀ ms : List (Bytes × BTree),
    bpayload.members (ms ++ [(k, t)]) = bpayload.members ms ++ (btype t :: k ++ [0x00] ++ bpayload t)
  | [] => by simp [bpayload.members]
  | (k', t') :: ms => by simp [bpayload.members, members_snoc_bytes k t ms]

theorem elems_snoc_bytes (t : BTree) : ∀ (ts : List BTree) (i : Nat),
    bpayload.elems i (ts ++ [t]) = bpayload.elems i ts ++ (btype t :: decimal (i + ts.length) ++ [0x00] ++ bpayload t)
  | [], i => by simp [bpayload.elems]
  | t' :: ts, i => by
    simp only [List.cons_append, bpayload.elems, elems_snoc_bytes t ts (i + 1), List.append_assoc, List.length_cons]
    rw [show i + 1 + ts.length = i + (ts.length + 1) by omega]

theorem allkeys_members_snoc {K X : Type} (P : K → Prop) (k : K) (t : Tr K X) : ∀ ms : List (K × Tr K X), AllKeys.members P (ms ++ [(k, t)]) ↔ AllKeys.members P ms ∧ P k ∧ AllKeys P t
  | [] => by simp [AllKeys.members]
  | (k', t') :: ms => by simp [AllKeys.members, allkeys_members_snoc P k t ms, and_assoc]
theorem allkeys_elems_snoc {K X : Type} (P : K → Prop) (t : Tr K X) : ∀ ts : List (Tr K X), AllKeys.elems P (ts ++ [t]) ↔ AllKeys.elems P ts ∧ AllKeys P t
  | [] => by simp [AllKeys.elems]
  | t' :: ts => by simp [AllKeys.elems, allkeys_elems_snoc P t ts, and_assoc]
theorem allscalars_members_snoc {K X : Type} (P : X → Prop) (k : K) (t : Tr K X) : ∀ ms : List (K × Tr K X), AllScalars.members P (ms ++ [(k, t)]) ↔ AllScalars.members P ms ∧ AllScalars P t
  | [] => by simp [AllScalars.members]
  | (k', t') :: ms => by simp [AllScalars.members, allscalars_members_snoc P k t ms, and_assoc]
theorem allscalars_elems_snoc {K X : Type} (P : X → Prop) (t : Tr K X) : ∀ ts : List (Tr K X), AllScalars.elems P (ts ++ [t]) ↔ AllScalars.elems P ts ∧ AllScalars P t
  | [] => by simp [AllScalars.elems]
  | t' :: ts => by simp [AllScalars.elems, allscalars_elems_snoc P t ts, and_assoc]

/-- The tree of a payload. -/
def TreeOf (t : Byte) (p : Bytes) : Prop :=
  ∃ d : BTree, btype d = t ∧ bpayload d = p ∧ AllKeys (fun k => (0x00 : Byte) ∉ k) d ∧ AllScalars BScalar.valid d ∧ ((t = 0x03 ∨ t = 0x04) → p.length < 2 ^ 31)

theorem code_scalar (x : BScalar) : x.code ≠ 0x03 ∧ x.code ≠ 0x04 := by
  cases x with
  | fixed f p => cases f <;> simp [BScalar.code, Fixed.code]
  | _ => simp [BScalar.code]

mutual
theorem payload_tree : ∀ {t : Byte} {p : Bytes}, bstandard.Payload t p → TreeOf t p
  | _, _, .scalar ⟨x, h1, h2, h3⟩ => ⟨.scalar x, h2, h3, trivial, h1, fun h => by
      have := code_scalar x
      rw [h2] at this
      rcases h with h | h
      · exact absurd h this.1
      · exact absurd h this.2⟩
  | _, _, .obj h hl => by
    obtain ⟨ms, e, h1, h2⟩ := members_tree h
    exact ⟨.obj ms, rfl, by rw [bpayload, e], h1, h2, fun _ => hl⟩
  | _, _, .arr h hl => by
    obtain ⟨ts, e, h1, h2, -⟩ := elements_tree h
    exact ⟨.arr ts, rfl, by rw [bpayload, e], h1, h2, fun _ => hl⟩
theorem members_tree : ∀ {es : Bytes}, bstandard.Members es → ∃ ms : List (Bytes × BTree), bpayload.members ms = es ∧
    AllKeys.members (fun k => (0x00 : Byte) ∉ k) ms ∧ AllScalars.members BScalar.valid ms
  | _, .none => ⟨[], rfl, trivial, trivial⟩
  | _, .more h hk hp => by
    obtain ⟨ms, e, h1, h2⟩ := members_tree h
    obtain ⟨d, e1, e2, h3, h4, -⟩ := payload_tree hp
    exact ⟨ms ++ [(_, d)], by rw [members_snoc_bytes, e, e1, e2], (allkeys_members_snoc _ _ _ _).2 ⟨h1, hk, h3⟩, (allscalars_members_snoc _ _ _ _).2 ⟨h2, h4⟩⟩
theorem elements_tree : ∀ {n : Nat} {es : Bytes}, bstandard.Elements n es → ∃ ts : List BTree, bpayload.elems 0 ts = es ∧
    AllKeys.elems (fun k => (0x00 : Byte) ∉ k) ts ∧ AllScalars.elems BScalar.valid ts ∧ ts.length = n
  | _, _, .none => ⟨[], rfl, trivial, trivial, rfl⟩
  | _, _, .more h _ hi hp => by
    obtain ⟨ts, e, h1, h2, h5⟩ := elements_tree h
    obtain ⟨d, e1, e2, h3, h4, -⟩ := payload_tree hp
    have hi : _ = decimal _ := hi
    exact ⟨ts ++ [d], by rw [elems_snoc_bytes, e, e1, e2, hi, Nat.zero_add, h5], (allkeys_elems_snoc _ _ _).2 ⟨h1, h3⟩, (allscalars_elems_snoc _ _ _).2 ⟨h2, h4⟩, by simp [h5]⟩
end

theorem members_length {k : Bytes} {t : BTree} : ∀ {ms : List (Bytes × BTree)}, (k, t) ∈ ms → (bpayload t).length ≤ (bpayload.members ms).length
  | (_, _) :: ms, h => by
    rcases List.mem_cons.1 h with h | h
    · cases h
      simp [bpayload.members]
      omega
    · have := members_length h
      simp [bpayload.members]
      omega

mutual
theorem tree_payload : ∀ d : BTree, AllKeys (fun k => (0x00 : Byte) ∉ k) d → AllScalars BScalar.valid d → (btype d = 0x03 ∨ btype d = 0x04 → (bpayload d).length < 2 ^ 31) →
    bstandard.Payload (btype d) (bpayload d)
  | .scalar x, _, hs, _ => .scalar ⟨x, hs, rfl, rfl⟩
  | .obj ms, hk, hs, hl => by
    have hl := hl (.inl rfl)
    simp only [bpayload] at hl ⊢
    have := framed_length (bpayload.members ms)
    exact .obj (by have := tree_members [] ms .none hk hs (by omega); simpa using this) hl
  | .arr ts, hk, hs, hl => by
    have hl := hl (.inr rfl)
    simp only [bpayload] at hl ⊢
    have := framed_length (bpayload.elems 0 ts)
    exact .arr (by have := tree_elements 0 [] ts .none hk hs (by omega); simpa using this) hl
theorem tree_members : ∀ (pre : Bytes) (ms : List (Bytes × BTree)), bstandard.Members pre → AllKeys.members (fun k => (0x00 : Byte) ∉ k) ms → AllScalars.members BScalar.valid ms →
    (bpayload.members ms).length < 2 ^ 31 → bstandard.Members (pre ++ bpayload.members ms)
  | pre, [], h, _, _, _ => by simpa [bpayload.members] using h
  | pre, (k, d) :: ms, h, hk, hs, hl => by
    simp only [bpayload.members, List.length_append, List.length_cons, List.length_nil] at hl
    have hd := tree_payload d hk.2.1 hs.1 (fun _ => by omega)
    have := tree_members _ ms (.more h hk.1 hd) hk.2.2 hs.2 (by omega)
    simpa [bpayload.members] using this
theorem tree_elements : ∀ (n : Nat) (pre : Bytes) (ts : List BTree), bstandard.Elements n pre → AllKeys.elems (fun k => (0x00 : Byte) ∉ k) ts → AllScalars.elems BScalar.valid ts →
    (bpayload.elems n ts).length < 2 ^ 31 → bstandard.Elements (n + ts.length) (pre ++ bpayload.elems n ts)
  | n, pre, [], h, _, _, _ => by simpa [bpayload.elems] using h
  | n, pre, d :: ts, h, hk, hs, hl => by
    simp only [bpayload.elems, List.length_append, List.length_cons, List.length_nil] at hl
    have hd := tree_payload d hk.1 hs.1 (fun _ => by omega)
    have := tree_elements (n + 1) _ ts (.more h (BsonP.decimal_no_nul n) rfl hd) hk.2 hs.2 (by omega)
    rw [show n + (d :: ts).length = n + 1 + ts.length by simp; omega]
    simpa [bpayload.elems] using this
end

/-- The grammar with the rules of the standard describes the documents of Spec/Bson.lean: bytes are a payload of a type if and only if they are the payload of a tree of that
type with keys without NUL, whose scalars can be stored and, if it is a container, whose length fits. -/
theorem C108_grammar (t : Byte) (p : Bytes) : bstandard.Payload t p ↔
    ∃ d : BTree, btype d = t ∧ bpayload d = p ∧ AllKeys (fun k => (0x00 : Byte) ∉ k) d ∧ AllScalars BScalar.valid d ∧ (t = 0x03 ∨ t = 0x04 → p.length < 2 ^ 31) := by
  refine ⟨payload_tree, ?_⟩
  rintro ⟨d, rfl, rfl, h1, h2, h3⟩
  exact tree_payload d h1 h2 h3

/-! ### bytes that are not BSON -/

theorem keys_split : ∀ {k k' p p' : Bytes}, (0x00 : Byte) ∉ k → (0x00 : Byte) ∉ k' → k ++ 0x00 :: p = k' ++ 0x00 :: p' → k = k' ∧ p = p'
  | [], [], _, _, _, _, h => by simpa using h
  | [], b :: k', _, _, _, h2, h => by
    simp at h
    rw [← h.1] at h2
    simp at h2
  | a :: k, [], _, _, h1, _, h => by
    simp at h
    rw [h.1] at h1
    simp at h1
  | a :: k, b :: k', _, _, h1, h2, h => by
    simp only [List.cons_append, List.cons.injEq] at h
    obtain ⟨rfl, h⟩ := h
    obtain ⟨rfl, rfl⟩ := keys_split (fun m => h1 (List.mem_cons_of_mem _ m)) (fun m => h2 (List.mem_cons_of_mem _ m)) h
    exact ⟨rfl, rfl⟩

theorem leInt_le4 {n : Nat} (h : n < 2 ^ 31) : leInt (le 4 n) = n := by
  rw [← leBytes_eq_le]
  exact leInt_leBytes 4 n (by omega) (by omega)

theorem framed_take {es rest : Bytes} (h : (framed es).length < 2 ^ 31) : leInt ((framed es ++ rest).take 4) = (framed es).length := by
  have e : (framed es ++ rest).take 4 = le 4 (4 + es.length + 1 : Nat) := by
    unfold framed
    rw [List.append_assoc, List.append_assoc, List.take_left' (le_length _ _)]
  rw [framed_length] at h ⊢
  rw [e, leInt_le4 h]

/-- The elements of a document at the start of bytes. -/
theorem framed_inside {es u rest t : Bytes} (h : t = u ++ rest) (hu : u = framed es) (hl : u.length < 2 ^ 31) {n : Nat} (hn : leInt (t.take 4) = n) :
    es = (t.drop 4).take (n - 5) := by
  subst hu
  rw [h, framed_take hl] at hn
  rw [framed_length] at hn
  have hn : n = 4 + es.length + 1 := by omega
  subst hn h
  have e : (framed es ++ rest).drop 4 = es ++ (0x00 :: rest) := by
    unfold framed
    rw [List.append_assoc, List.append_assoc, List.drop_left' (le_length _ _)]
    simp
  rw [e, show 4 + es.length + 1 - 5 = es.length by omega, List.take_left' rfl]

/-- A string whose terminator is not NUL. -/
def odd108 : Bytes := [0x0E, 0, 0, 0, 0x02, 0x30, 0, 0x02, 0, 0, 0, 0x61, 0x01, 0]

theorem odd108_import : bsonImport Samples.env ⟨.Strict, []⟩ .str (.str []) odd108 = .ok (.str b!"a") := by
  have hd : deser BsonP.ops Samples.env ⟨.Strict, []⟩ .str (.str []) (PI.init ⟨⟨odd108, 4, true⟩, [.Value, .Value], [10], [14], .Key, [], 0x00, false⟩) =
      .ok (.str b!"a", PI.init ⟨⟨odd108, 13, true⟩, [.Value, .Value], [1], [14], .Value, [0x30], 0x02, true⟩) := by
    rw [deser]
    rfl
  unfold bsonImport importValue
  rw [show (PI.init (BsonP.ofBytes (bsonBase Samples.env .str) odd108)).getToken BsonP.ops =
    .ok (.DocStart, PI.init ⟨⟨odd108, 4, true⟩, [.Value, .Value], [10], [14], .Key, [], 0x00, false⟩) from rfl]
  simp only [Res.ok_bind, ne_eq, not_true_eq_false, if_false, hd]
  rfl

theorem odd108_not : ¬ ∃ u rest, odd108 = u ++ rest ∧ bstandard.Doc .Value u := by
  rintro ⟨u, rest, e, t, k, p, hk, hp, hu, hl⟩
  have h := framed_inside e hu hl (n := 14) (by decide)
  have h : t :: (k ++ 0x00 :: p) = 0x02 :: ([0x30] ++ 0x00 :: [0x02, 0, 0, 0, 0x61, 0x01]) := by
    have h2 : (odd108.drop 4).take (14 - 5) = 0x02 :: ([0x30] ++ 0x00 :: [0x02, 0, 0, 0, 0x61, 0x01]) := by decide
    rw [h2] at h
    simpa using h
  obtain ⟨rfl, h'⟩ := List.cons.inj h
  obtain ⟨-, rfl⟩ := keys_split (k' := [0x30]) hk (by decide) h'
  obtain ⟨d, h1, h2, -, -, -⟩ := (C108_grammar _ _).1 hp
  cases d with
  | obj ms => simp [btype] at h1
  | arr ts => simp [btype] at h1
  | scalar x =>
    cases x with
    | str s =>
      have := congrArg List.getLast? h2
      simp [bpayload, BScalar.payload] at this
    | fixed f q => cases f <;> simp [btype, BScalar.code, Fixed.code] at h1
    | _ => simp [btype, BScalar.code] at h1

/-- C108 is false as it stands: the byte behind a string is not looked at (BsonParser.cpp, `readString`), … -/
theorem C108_false : ¬ ∀ (env : Env) (cfg : Cfg) (ty : Ty) (old v : Val) (t : Bytes), cfg.strict ≠ .Weak → t.length < 2 ^ 63 → bsonImport env cfg ty old t = .ok v →
    ∃ u rest, t = u ++ rest ∧ bstandard.Doc (bsonBase env ty) u :=
  fun h => odd108_not (h Samples.env ⟨.Strict, []⟩ .str (.str []) _ odd108 (by simp) (by decide) odd108_import)

/-- An array whose only element has the key `x`. -/
def odd108a : Bytes := [0x09, 0, 0, 0, 0x08, 0x78, 0, 0x01, 0]

theorem odd108a_import : bsonImport Samples.env ⟨.Strict, []⟩ (.vec .bool) (.list []) odd108a = .ok (.list [.bool true]) := by
  have hb : deser BsonP.ops Samples.env ⟨.Strict, []⟩ .bool (.bool false) ((PI.init ⟨⟨odd108a, 7, true⟩, [.Array], [2], [9], .Value, [0x78], 0x08, true⟩).pushBackToken .Value) =
      .ok (.bool true, PI.init ⟨⟨odd108a, 8, true⟩, [.Array], [1], [9], .Value, [0x78], 0x08, true⟩) := by
    rw [deser]
    rfl
  have hv2 : deserVec BsonP.ops Samples.env ⟨.Strict, []⟩ .back .bool [.bool true] (PI.init ⟨⟨odd108a, 8, true⟩, [.Array], [1], [9], .Value, [0x78], 0x08, true⟩) =
      .ok (.list [.bool true], PI.init ⟨⟨odd108a, 9, true⟩, [], [], [], .DocEnd, [0x78], 0x08, false⟩) := by
    rw [deserVec]
    rfl
  have hv1 : deserVec BsonP.ops Samples.env ⟨.Strict, []⟩ .back .bool [] (PI.init ⟨⟨odd108a, 4, true⟩, [.Array], [5], [9], .Key, [], 0x00, false⟩) =
      .ok (.list [.bool true], PI.init ⟨⟨odd108a, 9, true⟩, [], [], [], .DocEnd, [0x78], 0x08, false⟩) := by
    rw [deserVec]
    rw [show (PI.init (⟨⟨odd108a, 4, true⟩, [.Array], [5], [9], .Key, [], 0x00, false⟩ : BsonP)).getToken BsonP.ops =
      .ok (.Value, PI.init ⟨⟨odd108a, 7, true⟩, [.Array], [2], [9], .Value, [0x78], 0x08, true⟩) from rfl]
    simp only [Res.ok_bind, reduceCtorEq, if_false]
    rw [show Ty.default Samples.env .bool = .bool false from rfl, hb]
    simp only [Res.ok_bind]
    exact hv2
  unfold bsonImport importValue
  rw [show (PI.init (BsonP.ofBytes (bsonBase Samples.env (.vec .bool)) odd108a)).getToken BsonP.ops =
    .ok (.DocStart, PI.init ⟨⟨odd108a, 0, true⟩, [.Array], [], [], .ArrayStart, [], 0x00, false⟩) from rfl]
  simp only [Res.ok_bind, ne_eq, not_true_eq_false, if_false]
  rw [deser]
  rw [show (PI.init (⟨⟨odd108a, 0, true⟩, [.Array], [], [], .ArrayStart, [], 0x00, false⟩ : BsonP)).getToken BsonP.ops =
    .ok (.ArrayStart, PI.init ⟨⟨odd108a, 4, true⟩, [.Array], [5], [9], .Key, [], 0x00, false⟩) from rfl]
  simp only [Res.ok_bind, ne_eq, not_true_eq_false, if_false, hv1]
  rfl

/-- … the keys of arrays are not looked at, … -/
theorem C108_false_index : bsonImport Samples.env ⟨.Strict, []⟩ (.vec .bool) (.list []) odd108a = .ok (.list [.bool true]) ∧
    ¬ ∃ u rest, odd108a = u ++ rest ∧ bstandard.Doc .Array u := by
  refine ⟨odd108a_import, ?_⟩
  rintro ⟨u, rest, e, h⟩
  obtain ⟨d, h1, rfl, -, -, hl⟩ := (C108_grammar _ _).1 h
  have hl := hl (.inr rfl)
  cases d with
  | obj ms => simp [btype] at h1
  | scalar x => exact absurd h1 (code_scalar x).2
  | arr ts =>
    have h := framed_inside e rfl hl (n := 9) (by decide)
    rw [show (odd108a.drop 4).take (9 - 5) = [0x08, 0x78, 0, 0x01] by decide] at h
    cases ts with
    | nil => simp [bpayload.elems] at h
    | cons d ts =>
      rw [bpayload.elems, show decimal 0 = [0x30] by decide] at h
      simp at h

/-- The first member of a document. -/
theorem members_front {g : BRules} : ∀ {es : Bytes}, g.Members es → es = [] ∨ ∃ (t : Byte) (k p es' : Bytes), (0x00 : Byte) ∉ k ∧ g.Payload t p ∧ es = (t :: k ++ [0x00] ++ p) ++ es'
  | _, .none => .inl rfl
  | _, .more h hk hp => by
    rcases members_front h with rfl | ⟨t, k, p, es', h1, h2, rfl⟩
    · exact .inr ⟨_, _, _, [], hk, hp, by simp⟩
    · exact .inr ⟨t, k, p, _, h1, h2, by rw [List.append_assoc]⟩

theorem blax_string {S : Ty → Prop} {w : Prop} {p : Bytes} : ∀ {t : Byte}, t = 0x02 → (blax S w).Payload t p → ∃ s, Counted s p
  | _, e, .obj _ _ => absurd e (by decide)
  | _, e, .arr _ _ => absurd e (by decide)
  | _, e, .scalar h => by
    subst e
    rcases h with ⟨-, ⟨h, -⟩ | ⟨h, -⟩⟩ | ⟨-, h, -⟩ | ⟨-, h, -⟩ | ⟨-, s, -, h⟩ | ⟨-, h, -⟩ | ⟨-, h⟩
    · exact absurd h (by decide)
    · exact absurd h (by decide)
    · exact absurd h (by decide)
    · exact absurd h (by decide)
    · exact ⟨s, h⟩
    · exact absurd h (by decide)
    · rcases h with ⟨h, -⟩ | ⟨h, -⟩ | ⟨h, -⟩ | ⟨h, -⟩ | ⟨h, -⟩ | ⟨h, -⟩ | ⟨h, -⟩ | ⟨h, -⟩ | ⟨h, -⟩ | ⟨-, h⟩ | ⟨h, -⟩ <;> first | exact h | exact absurd h (by decide)

/-- … and in Weak mode a string of the length -7 is skipped: seven bytes back (`odd80`). Not even the lax rules have such strings. -/
theorem C108_false_weak : bsonImport env80 ⟨.Weak, []⟩ (.named 0) (.obj [] []) odd80 = .ok (.obj [] []) ∧
    ¬ ∃ u rest, odd80 = u ++ rest ∧ (blax (fun _ => True) True).Doc .Map u := by
  refine ⟨odd80_string, ?_⟩
  rintro ⟨u, rest, e, h⟩
  have key : ∀ es : Bytes, u = framed es → (framed es).length < 2 ^ 31 → (blax (fun _ => True) True).Members es → False := by
    intro es hu hl hm
    have h := framed_inside e hu (hu ▸ hl) (n := 17) (by decide)
    rcases members_front hm with rfl | ⟨t, k, p, es', hk, hp, rfl⟩
    · exact absurd h (by decide)
    · have h : t :: (k ++ 0x00 :: (p ++ es')) = 0x02 :: ([0x01, 0x61] ++ 0x00 :: [0xF9, 0xFF, 0xFF, 0xFF, 0xFF, 0xFF, 0xFF, 0xFF]) := by
        rw [show (odd80.drop 4).take (17 - 5) = 0x02 :: ([0x01, 0x61] ++ 0x00 :: [0xF9, 0xFF, 0xFF, 0xFF, 0xFF, 0xFF, 0xFF, 0xFF]) by decide] at h
        simpa using h
      obtain ⟨rfl, h'⟩ := List.cons.inj h
      obtain ⟨-, h⟩ := keys_split (k' := [0x01, 0x61]) hk (by decide) h'
      obtain ⟨s, hs, rfl⟩ := blax_string rfl hp
      have e4 := congrArg (List.take 4) h
      rw [List.append_assoc, List.take_left' (le_length _ _)] at e4
      have := leInt_le4 hs
      rw [e4] at this
      have hneg : leInt (([0xF9, 0xFF, 0xFF, 0xFF, 0xFF, 0xFF, 0xFF, 0xFF] : Bytes).take 4) = -7 := by decide
      omega
  have gen : ∀ t : Byte, t = 0x03 → (blax (fun _ => True) True).Payload t u → False := by
    intro t ht hp
    cases hp with
    | obj hm hl => exact key _ rfl hl hm
    | arr h hl => exact absurd ht (by decide)
    | scalar h =>
      subst ht
      rcases h with ⟨-, ⟨h, -⟩ | ⟨h, -⟩⟩ | ⟨-, h, -⟩ | ⟨-, h, -⟩ | ⟨h, -⟩ | ⟨-, h, -⟩ | ⟨-, h⟩
      · exact absurd h (by decide)
      · exact absurd h (by decide)
      · exact absurd h (by decide)
      · exact absurd h (by decide)
      · exact absurd h (by decide)
      · exact absurd h (by decide)
      · rcases h with ⟨h, -⟩ | ⟨h, -⟩ | ⟨h, -⟩ | ⟨h, -⟩ | ⟨h, -⟩ | ⟨h, -⟩ | ⟨h, -⟩ | ⟨h, -⟩ | ⟨h, -⟩ | ⟨h, -⟩ | ⟨h, -⟩ <;> exact absurd h (by decide)
  exact gen _ rfl h

/-- Sample: `{ "zz": { "a": true, "b": [ "x\0y", binary, null ] }, "id": 7, "yy": object id }` with the unknown `zz` and `yy`. -/
def bDoc108 : BTree := .obj [(b!"zz", .obj [(b!"a", .scalar (.bool true)), (b!"b", .arr [.scalar (.str [0x78, 0x00, 0x79]), .scalar (.bin 0x00 [1, 2, 3]), .scalar .null])]),
  (b!"id", .scalar (.int32 7)), (b!"yy", .scalar (.fixed .objectId [1, 2, 3, 4, 5, 6, 7, 8, 9, 10, 11, 12]))]

theorem bDoc108_storable : Storable32 bDoc108 := by
  refine ⟨by simp [bDoc108, AllKeys, AllKeys.members, AllKeys.elems], by simp [bDoc108, AllScalars, AllScalars.members, AllScalars.elems, BScalar.valid, Fixed.width], by decide +kernel⟩

/-- Documents that are imported: an object with unknown members, skipped, … -/
example : ∃ u rest, bdoc bDoc108 ++ b!"more" = u ++ rest ∧ (blax (Occurs bEnv (.named 0)) (ParseType.Weak = .Weak)).Doc .Map u := by
  have h : bsonImport bEnv ⟨.Weak, []⟩ (.named 0) (.obj [] [.int 0]) (bdoc bDoc108 ++ b!"more") = .ok (.obj [] [.int 7]) := by
    rw [C30_unknown_skipped bEnv ⟨.Weak, []⟩ rfl (.named 0) _ bDoc108 bDoc108_storable rfl _ [],
      bsonImport_doc _ _ _ (prune_storable bsem bEnv _ bDoc108_storable) _ _ rfl]
    rfl
  exact C108_strings_partial bEnv ⟨.Weak, []⟩ (.named 0) _ _ _ (by decide +kernel) (fun _ => by decide +kernel) h

/-- … and any string. -/
example (s : Bytes) (hs : s.length < 2 ^ 31 - 100) : ∃ u rest, bdoc (.scalar (.str s)) = u ++ rest ∧ (blax (Occurs Samples.env .str) (ParseType.Strict = .Weak)).Doc .Value u :=
  C108_strings_partial Samples.env ⟨.Strict, []⟩ .str (.str []) _ _ (by
    simp only [bdoc, framed_length, List.length_append, List.length_cons, BScalar.payload, le, List.length_map, List.length_range, List.length_nil]
    omega) (by simp) (string_import _ _ s _ hs)

/-- … also from the middle of a stream. -/
example : ∃ i', bsonStreamImport bEnv ⟨.Weak, []⟩ (.named 0) (.obj [] [.int 0]) ⟨b!"head" ++ (bdoc bDoc108 ++ b!"more"), 4, false, false, false⟩ = .ok (.obj [] [.int 7], i') ∧
    ∃ u, (blax (Occurs bEnv (.named 0)) (ParseType.Weak = .Weak)).Doc .Map u ∧ i'.pos = 4 + u.length := by
  have h : bsonImport bEnv ⟨.Weak, []⟩ (.named 0) (.obj [] [.int 0]) (bdoc bDoc108 ++ b!"more") = .ok (.obj [] [.int 7]) := by
    rw [C30_unknown_skipped bEnv ⟨.Weak, []⟩ rfl (.named 0) _ bDoc108 bDoc108_storable rfl _ [],
      bsonImport_doc _ _ _ (prune_storable bsem bEnv _ bDoc108_storable) _ _ rfl]
    rfl
  obtain ⟨i', e⟩ := (C80_any_bytes_partial bEnv ⟨.Weak, []⟩ (.named 0) _ _ _ (fun _ => by decide +kernel)
    ⟨b!"head" ++ (bdoc bDoc108 ++ b!"more"), 4, false, false, false⟩ ⟨rfl, by simp, rfl, rfl⟩).1 h
  obtain ⟨u, rest, -, h2, -, h4⟩ := C108_streams_partial bEnv ⟨.Weak, []⟩ (.named 0) _ _ _ i' (by simp) (by decide +kernel) (fun _ => by decide +kernel) e
  exact ⟨i', e, u, h2, h4⟩

end Thors.Props
