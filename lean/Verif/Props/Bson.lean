import Verif.Props.RoundTrip
import Verif.Proofs.ImpOrder
import Verif.Proofs.BsonPrune
import Verif.Proofs.BsonShort
/-
BSON documents. C26: sizes. C27: round trip. C28: strings. C30: skipping. C31: integers. C33: truncation. The BSON
sides of C17, C18, C19 (members) and C24 (output to a string).

The bytes of a BSON document are specified by `bdoc` (Spec/Bson.lean): each document, sub-document and array is
`framed`, that is, starts with its own length.
-/
namespace Thors.Props
open Thors Spec StrIn BPrint

/-! ### Sample -/

/-- Sample program:
 * 0: `struct Base { int id; }`, with the virtual functions
 * 1: `struct Node : Base { std::optional<std::string> note; std::vector<std::string> xs; std::unique_ptr<bool> p; Colour c;
   std::map<std::string, unsigned char> m; Base* next; std::tuple<long,bool> t; Shape s; double w; }`; `c` is called `colour` in documents
 * 2: `enum Colour`, 3: `std::tuple<long,bool>`, 4: `std::variant<Tagged>`, 5: `struct Tagged { bool on; }` with the type field name "kind" -/
def bEnv : Env where
  defs
    | 0 => .cls ⟨.mk [] [⟨b!"id", b!"id", Samples.int32⟩] none, b!"Base", none⟩
    | 1 => .cls ⟨.mk [.mk [] [⟨b!"id", b!"id", Samples.int32⟩] none]
        [⟨b!"note", b!"note", .opt .str⟩, ⟨b!"xs", b!"xs", .vec .str⟩, ⟨b!"p", b!"p", .uptr .bool⟩, ⟨b!"c", b!"colour", .named 2⟩,
         ⟨b!"m", b!"m", .smap (.int ⟨8, false⟩)⟩, ⟨b!"next", b!"next", .pptr 0⟩, ⟨b!"t", b!"t", .named 3⟩, ⟨b!"s", b!"s", .named 4⟩, ⟨b!"w", b!"w", .flt f64⟩] none, b!"Node", none⟩
    | 2 => .enum [(0, b!"Red"), (5, b!"Green")]
    | 3 => .tuple [.int ⟨64, true⟩, .bool]
    | 4 => .variant [5]
    | 5 => .cls ⟨.mk [] [⟨b!"on", b!"on", .bool⟩] none, b!"Tagged", some b!"kind"⟩
    | _ => .enum []
  dflt
    | 0 => .obj [] [.int 0]
    | 1 => .obj [.obj [] [.int 0]] [.none, .list [], .null, .enum 0, .dict [], .null, .list [.int 0, .bool false], .alt 5 (.obj [] [.bool false]), .flt (.fin false 0 0)]
    | 2 => .enum 0
    | 3 => .list [.int 0, .bool false]
    | 4 => .alt 5 (.obj [] [.bool false])
    | 5 => .obj [] [.bool false]
    | _ => .enum 0
  registry := [(b!"Base", 0), (b!"Node", 1)]
  derives c b := decide (c = b) || decide (b = 0)

def bInfo : SizeInfo where
  virt i := i == 0 || i == 1
  pair _ := false

theorem bEnv_good : GoodTypes bEnv where
  names i c h := by
    match i with
    | 0 | 1 | 5 => simp only [bEnv, TypeDef.cls.injEq] at h; subst h; decide
    | 2 | 3 | 4 => simp [bEnv] at h
    | n + 6 => simp [bEnv] at h
  enums i t h := by
    match i with
    | 0 | 1 | 3 | 4 | 5 => simp [bEnv] at h
    | 2 => simp only [bEnv, TypeDef.enum.injEq] at h; subst h; decide
    | n + 6 => simp only [bEnv, TypeDef.enum.injEq] at h; subst h; decide
  fresh i := by
    match i with
    | 0 | 1 | 2 | 3 | 4 | 5 => simp [bEnv, Fresh, FreshOwn, FreshParents, FreshTuple, Samples.int32]
    | n + 6 => simp [bEnv, Fresh]

theorem bEnv_noFilter : ∀ i c, bEnv.defs i = .cls c → NoFilter c.traits := by
  intro i c h
  match i with
  | 0 | 1 | 5 => simp only [bEnv, TypeDef.cls.injEq] at h; subst h; simp [NoFilter, NoFilter.all]
  | 2 | 3 | 4 => simp [bEnv] at h
  | n + 6 => simp [bEnv] at h

def bLeaf : Val := .obj [.obj [] [.int 9]] [.none, .list [], .null, .enum 0, .dict [], .null, .list [.int (-3), .bool true], .alt 5 (.obj [] [.bool true]), .flt (.inf true)]
def bNode : Val := .obj [.obj [] [.int (-12)]] [.some (.str b!"hi"), .list [.str b!"a", .str b!""], .ptr (.bool true), .enum 5,
  .dict [(b!"a", .int 255), (b!"b", .int 0)], .dyn 1 bLeaf, .list [.int 4000000000, .bool false], .alt 5 (.obj [] [.bool false]),
  .flt (.fin true (2 ^ 52 + 1) 1)]

def bLeafDoc : List (Bytes × Doc) :=
  [(b!"xs", .arr []), (b!"p", .scalar .null), (b!"colour", .scalar (.str b!"Red")),
   (b!"m", .obj []), (b!"next", .scalar .null), (b!"t", .arr [.scalar (.int ⟨64, true⟩ (-3)), .scalar (.bool true)]),
   (b!"s", .obj [(b!"kind", .scalar (.str b!"Tagged")), (b!"on", .scalar (.bool true))]),
   (b!"w", .scalar (.flt f64 (.inf true))), (b!"id", .scalar (.int ⟨32, true⟩ 9))]
def bNodeDoc : Doc := .obj
  [(b!"note", .scalar (.str b!"hi")), (b!"xs", .arr [.scalar (.str b!"a"), .scalar (.str b!"")]), (b!"p", .scalar (.bool true)),
   (b!"colour", .scalar (.str b!"Green")), (b!"m", .obj [(b!"a", .scalar (.int ⟨8, false⟩ 255)), (b!"b", .scalar (.int ⟨8, false⟩ 0))]),
   (b!"next", .obj ((b!"__type", .scalar (.str b!"Node")) :: bLeafDoc)), (b!"t", .arr [.scalar (.int ⟨64, true⟩ 4000000000), .scalar (.bool false)]),
   (b!"s", .obj [(b!"kind", .scalar (.str b!"Tagged")), (b!"on", .scalar (.bool false))]),
   (b!"w", .scalar (.flt f64 (.fin true (2 ^ 52 + 1) 1))), (b!"id", .scalar (.int ⟨32, true⟩ (-12)))]

theorem bNode_doc : docOf bEnv [] (.named 1) bNode = .ok bNodeDoc := by
  simp [docOf, docOwn, docParents, docList, docTuple, docDict, bNode, bLeaf, bEnv, Samples.int32, shown, bNodeDoc, bLeafDoc, polyMarker, List.lookup]

theorem bNode_storable : Storable bEnv [] (.named 1) bNode := by
  simp [Storable, StorableOwn, StorableParents, StorableList, StorableTuple, StorableDict, bNode, bLeaf, bEnv, Samples.int32, polyMarker, nullable,
    keysOrdered, List.lookup]
  repeat' apply And.intro
  all_goals first
    | exact True.intro
    | decide
    | (intro a d ha _ _; exact ha)

theorem bNode_sizeKnown : SizeKnown bEnv bInfo false (.named 1) bNode := by
  simp [SizeKnown, SizeKnownOwn, SizeKnownParents, SizeKnownList, SizeKnownTuple, SizeKnownDict, bNode, bLeaf, bEnv, bInfo, Samples.int32]

theorem bNode_top : TopLevel bEnv (.named 1) bNode := by simp [TopLevel, bEnv, bNode]

theorem bNode_plain : AllScalars plainAtom bNodeDoc := by
  simp [bNodeDoc, bLeafDoc, AllScalars, AllScalars.members, AllScalars.elems, plainAtom]
  decide

theorem bNode_doubles : AllScalars doubleAtom bNodeDoc := by
  simp [bNodeDoc, bLeafDoc, AllScalars, AllScalars.members, AllScalars.elems, doubleAtom]

theorem bNode_keys : AllKeys (fun k => (0x00 : Byte) ∉ k) bNodeDoc := by
  simp [bNodeDoc, bLeafDoc, AllKeys, AllKeys.members, AllKeys.elems]

theorem bNode_length : (bdoc (btree bNodeDoc)).length < 2 ^ 31 := by decide +kernel

/-! ### C26 -/

/-- C26, for values whose strings need no escaping, and for the uses of classes in `SizeKnown` (no variants of classes
without `ThorsAnvil_TypeFieldName`, no polymorphic classes behind plain pointers, no empty optional in a `std::pair`),
at the top level no optional and no variant. The export is the BSON document of the value: each document, sub-document
and array starts with its length. Any type, any depth. -/
theorem C26_sizes_partial (env : Env) (info : SizeInfo) (mk : Bytes) (ty : Ty) (v : Val) (d : Doc) (hd : docOf env mk ty v = .ok d)
    (hk : SizeKnown env info false ty v) (ha : AllScalars plainAtom d) (ht : TopLevel env ty v) :
    bsonExport env info mk ty v = .ok (bdoc (btree d)) := bsonExport_doc env info mk ty v d hd hk ha ht

/-- What `framed` means: the first four bytes, read as an integer, are the number of bytes. -/
theorem C26_framed_length (b : Bytes) (h : (framed b).length < 2 ^ 31) : leInt ((framed b).take 4) = (framed b).length := by
  have hl : (framed b).length = 4 + b.length + 1 := framed_length b
  have e : (framed b).take 4 = le 4 (4 + b.length + 1 : Nat) := by
    unfold framed
    rw [List.append_assoc, List.take_append_of_le_length (by simp [le])]
    exact List.take_of_length_le (by simp [le])
  rw [e, ← leBytes_eq_le, leInt_leBytes _ _ (by omega) (by omega), hl]

example : bsonExport bEnv bInfo [] (.named 1) bNode = .ok (bdoc (btree bNodeDoc)) :=
  C26_sizes_partial bEnv bInfo [] _ _ _ bNode_doc bNode_sizeKnown bNode_plain bNode_top

theorem escape_length (s : Bytes) : s.length ≤ (escapeString s).length ∧ ((escapeString s).length = s.length ↔ cleanKey s) := by
  rw [escapeString_eq]
  induction s with
  | nil => simp [cleanKey]
  | cons c s ih =>
    have hc : cleanKey (c :: s) ↔ (0x20 ≤ c.toNat ∧ c ≠ 0x22 ∧ c ≠ 0x5C) ∧ cleanKey s := by simp [cleanKey]
    rw [hc, List.flatMap_cons, List.length_append, List.length_cons]
    have h1 : (if isEscape c then escapeOne c else [c]).length = 1 ∧ (0x20 ≤ c.toNat ∧ c ≠ 0x22 ∧ c ≠ 0x5C) ∨
        2 ≤ (if isEscape c then escapeOne c else [c]).length ∧ ¬ (0x20 ≤ c.toNat ∧ c ≠ 0x22 ∧ c ≠ 0x5C) := by
      by_cases he : isEscape c = true
      · right
        rw [if_pos he]
        constructor
        · unfold escapeOne; repeat' split
          all_goals simp
        · simp only [isEscape, decide_eq_true_eq] at he
          rintro ⟨a, b, d⟩
          rcases he with h | h | h
          · omega
          · exact b h
          · exact d h
      · left
        rw [if_neg he]
        simp only [isEscape, decide_eq_true_eq] at he
        refine ⟨rfl, by omega, fun h => he (.inr (.inl h)), fun h => he (.inr (.inr h))⟩
    obtain ⟨ih1, ih2⟩ := ih
    generalize (if isEscape c then escapeOne c else [c]).length = a at h1 ⊢
    generalize (s.flatMap fun c => if isEscape c then escapeOne c else [c]).length = b at ih1 ih2 ⊢
    rcases h1 with ⟨h1, h2⟩ | ⟨h1, h2⟩
    · refine ⟨by omega, ?_⟩
      have : (a + b = s.length + 1 ↔ b = s.length) := by omega
      rw [this, ih2]
      exact ⟨fun h => ⟨h2, h⟩, fun h => h.2⟩
    · refine ⟨by omega, ?_⟩
      exact ⟨fun h => by omega, fun h => absurd h.1 h2⟩

/-- C26 is false for strings. The size computation counts a string as it is, but it is written escaped (C28): the length
in front of a list of one string is right exactly if the string needs no escaping. -/
theorem C26_false_strings (env : Env) (info : SizeInfo) (mk : Bytes) (s : Bytes) (hs : s.length < 2 ^ 30) :
    ∃ bytes, bsonExport env info mk (.vec .str) (.list [.str s]) = .ok bytes ∧
      (leInt (bytes.take 4) = bytes.length ↔ cleanKey s) := by
  refine ⟨le 4 (13 + s.length : Nat) ++ ([0x02, 0x30, 0x00] ++ le 4 ((escapeString s).length + 1 : Nat) ++ escapeString s ++ [0x00, 0x00]), ?_, ?_⟩
  · have h1 : bytesOf ((escapeWrites s).map .chars) = _ := escapeWrites_bytes (ft := streamText) s
    have h0 : natText 0 = [0x30] := by rw [natText_decimal]; decide
    have h2 : sizeArray 1 + (4 + s.length + 1 + 0) = 13 + s.length := by simp [sizeArray, indexLoop]; omega
    simp only [bsonExport, bsonRefuses, bsonPass, ser, serList, inArray, psize, psizeList, Res.ok_bind, Res.pure_eq, List.length_cons, List.length_nil,
      Nat.zero_add, h2]
    simp [run, step, writeKey, element, BPrint.init, h0, leBytes_eq_le, bytesOf, Write.bytesIn, bytesIn, bsonBase, closeDoc]
    simpa [bytesOf, bytesIn] using h1
  · have ht : List.take 4 (le 4 (13 + s.length : Nat) ++ ([0x02, 0x30, 0x00] ++ le 4 ((escapeString s).length + 1 : Nat) ++ escapeString s ++ [0x00, 0x00])) =
        le 4 (13 + s.length : Nat) := by
      rw [List.take_append_of_le_length (by simp [le])]
      exact List.take_of_length_le (by simp [le])
    have hl : ∀ n, (le 4 n).length = 4 := by simp [le]
    rw [ht, ← leBytes_eq_le, leInt_leBytes _ _ (by omega) (by omega), ← (escape_length s).2]
    simp only [List.length_append, List.length_cons, List.length_nil, leBytes_eq_le, hl]
    omega

example : ¬ cleanKey b!"\n" ∧ cleanKey b!"plain text" := by decide

/-- Sample: 0 is `std::variant<Base>` with 1 `struct Base { bool b; }` (no type field name), 2 is `std::pair<bool, std::optional<bool>>`. -/
def oddEnv : Env where
  defs
    | 0 => .variant [1]
    | 1 => .cls ⟨.mk [] [⟨b!"b", b!"b", .bool⟩] none, b!"Base", none⟩
    | 2 => .cls ⟨.mk [] [⟨b!"first", b!"first", .bool⟩, ⟨b!"second", b!"second", .opt .bool⟩] none, b!"pair", none⟩
    | _ => .enum []
  dflt _ := .null
  registry := []
  derives _ _ := false
def oddInfo : SizeInfo := ⟨fun _ => false, fun i => i == 2⟩

/-- C26 is false for lists of variants (of classes without type field name), where the name of the class is not counted, and
for a `std::pair` with an empty optional, which is counted but not written. -/
theorem C26_false_classes :
    (∃ bytes, bsonExport oddEnv oddInfo [] (.vec (.named 0)) (.list [.alt 1 (.obj [] [.bool true])]) = .ok bytes ∧ leInt (bytes.take 4) < bytes.length) ∧
    (∃ bytes, bsonExport oddEnv oddInfo [] (.named 2) (.obj [] [.bool true, .none]) = .ok bytes ∧ leInt (bytes.take 4) > bytes.length) := by
  have h0 : natText 0 = [0x30] := by rw [natText_decimal]; decide
  constructor
  · refine ⟨[17, 0, 0, 0, 0x03, 0x30, 0x00, 9, 0, 0, 0, 0x02] ++ b!"__type" ++ [0x00, 5, 0, 0, 0] ++ b!"Base" ++ [0x00, 0x08, 0x62, 0x00, 0x01, 0x00, 0x00], ?_, by decide⟩
    simp [bsonExport, bsonRefuses, bsonPass, ser, serList, inArray, inMap, psize, psizeList, psizeOwn, psizeParents, oddEnv, oddInfo, serOwn, serParents, keepMember,
        run, step, writeKey, element, BPrint.init, h0, polyMarker, bsonBase, closeDoc]
    simp [sizeArray, indexLoop, sizeMap]
    decide
  · refine ⟨[21, 0, 0, 0, 0x08] ++ b!"first" ++ [0x00, 0x01, 0x00], ?_, by decide⟩
    simp [bsonExport, bsonRefuses, bsonPass, ser, inMap, psize, psizePair, oddEnv, oddInfo, serOwn, serParents, keepMember,
        run, step, writeKey, element, BPrint.init, bsonBase, closeDoc]
    simp [sizeMap]
    decide

/-! ### Strings at the top level -/

theorem escape_bound (s : Bytes) : (escapeString s).length ≤ 6 * s.length := by
  rw [escapeString_eq]
  induction s with
  | nil => simp
  | cons c s ih =>
    rw [List.flatMap_cons, List.length_append, List.length_cons]
    have : (if isEscape c then escapeOne c else [c]).length ≤ 6 := by
      split
      · unfold escapeOne; repeat' split
        all_goals simp
      · simp
    omega

theorem string_export (env : Env) (info : SizeInfo) (mk : Bytes) (s : Bytes) :
    bsonExport env info mk .str (.str s) = .ok (bdoc (.scalar (.str (escapeString s)))) := by
  have h1 : bytesOf ((escapeWrites s).map .chars) = _ := escapeWrites_bytes (ft := streamText) s
  have h2 : (bytesOf (.chars (leBytes 4 ((escapeString s).length + 1 : Nat)) :: ((escapeWrites s).map .chars ++ [.chars [0x00]]))).length = 4 + (escapeString s).length + 1 := by
    rw [← h1]
    simp [bytesOf, Write.bytesIn, bytesIn, leBytes_length]
    omega
  have h3 : bytesOf (.chars (leBytes 4 ((escapeString s).length + 1 : Nat)) :: ((escapeWrites s).map .chars ++ [.chars [0x00]])) = (BScalar.str (escapeString s)).payload := by
    simp only [BScalar.payload, leBytes_eq_le]
    simp [bytesOf, Write.bytesIn, bytesIn] at h1 ⊢
    exact h1
  simp only [bsonExport, bsonRefuses, bsonPass, ser, Res.ok_bind, Res.pure_eq, run, step, writeKey, element, BPrint.init, bsonBase, closeDoc, h2]
  have : ∀ a b : List Write, bytesOf (a ++ b) = bytesOf a ++ bytesOf b := bytesOf_append
  simp only [if_true, Bool.false_eq_true, if_false, List.append_nil, this, h3, bdoc, framed]
  have hl : (BScalar.str (escapeString s)).payload.length = 4 + (escapeString s).length + 1 := by rw [← h3, h2]
  have e : 4 + 1 + 2 + (4 + (escapeString s).length + 1) + 1 = 4 + ((BScalar.str (escapeString s)).code :: [0x30, 0x00] ++ (BScalar.str (escapeString s)).payload).length + 1 := by
    simp [hl]; omega
  rw [e, leBytes_eq_le]
  simp [bytesOf, Write.bytesIn, bytesIn, BScalar.code]

theorem string_import (env : Env) (cfg : Cfg) (s : Bytes) (old : Val) (h : s.length < 2 ^ 31 - 100) :
    bsonImport env cfg .str old (bdoc (.scalar (.str s))) = .ok (.str s) := by
  have := bsonImport_doc env cfg (.scalar (.str s)) ⟨trivial, trivial, by
    simp only [bdoc, framed_length, List.length_append, List.length_cons, BScalar.payload, le, List.length_map, List.length_range, List.length_nil]
    omega⟩ [] .str rfl old
  rw [List.append_nil] at this
  rw [this]
  rfl

theorem castTo_in (k : IntKind) (hk : 0 < k.bits) (v : Int) : InRange k (castTo k v) ∧ (castTo k v - v) % 2 ^ k.bits = 0 := by
  obtain ⟨b, sg⟩ := k
  simp only at hk
  have hp : (0 : Int) < 2 ^ b := Int.pow_pos (by decide)
  have e : (2 : Int) ^ b = 2 * 2 ^ (b - 1) := by rw [show b = (b - 1) + 1 by omega, Int.pow_succ, Int.mul_comm, Nat.add_sub_cancel]
  have h1 := Int.emod_nonneg v (Int.ne_of_gt hp)
  have h2 := Int.emod_lt_of_pos v hp
  have hm : (v % 2 ^ b - v) % 2 ^ b = 0 := by rw [Int.sub_emod, Int.emod_emod_of_dvd _ (Int.dvd_refl _), Int.sub_self, Int.zero_emod]
  have hm2 : (v % 2 ^ b - 2 ^ b - v) % 2 ^ b = 0 := by
    rw [show v % 2 ^ b - 2 ^ b - v = v % 2 ^ b - v - 2 ^ b by omega, Int.sub_emod, hm, Int.emod_self]
    simp
  rw [← fits_iff]
  simp only [castTo, IntKind.fits, IntKind.lo, IntKind.hi]
  generalize v % 2 ^ b = u at h1 h2 hm hm2 ⊢
  generalize (2 : Int) ^ (b - 1) = q at e ⊢
  cases sg with
  | false => simp; exact ⟨⟨h1, by omega⟩, hm⟩
  | true =>
    by_cases hs : 2 ^ b ≤ 2 * u
    · simp [hs]; exact ⟨by omega, hm2⟩
    · simp [hs]; exact ⟨by omega, hm⟩

theorem int32_storable {v : Int} (h : -2 ^ 31 ≤ v ∧ v < 2 ^ 31) : Storable32 (.scalar (.int32 v)) :=
  ⟨trivial, h, by simp [bdoc, framed_length, BScalar.payload, le]⟩
theorem int64_storable {v : Int} (h : -2 ^ 63 ≤ v ∧ v < 2 ^ 63) : Storable32 (.scalar (.int64 v)) :=
  ⟨trivial, h, by simp [bdoc, framed_length, BScalar.payload, le]⟩

/-! ### C27 -/

/-- C27, with the restrictions of C26 (and keys without NUL, and less than 2 GiB). Every value of every type that can be
represented and brought back (`Storable`) is exported to BSON; importing the bytes, in front of anything, into a fresh
object gives the value, and leaves the input exactly after the document. All strictness modes (Exact: where no member is
renamed, filtered or optional). -/
theorem C27_round_trip_partial (env : Env) (info : SizeInfo) (mk : Bytes) (cfg : Cfg) (ty : Ty) (v old : Val) (d : Doc) (post : Bytes)
    (hg : GoodTypes env) (hnf : ∀ i c, env.defs i = .cls c → NoFilter c.traits) (hm : cfg.marker = mk) (hx : cfg.strict = .Exact → ExactTypes env)
    (hd : docOf env mk ty v = .ok d) (hs : Storable env mk ty v) (ho : Fresh env ty old)
    (hz : SizeKnown env info false ty v) (ht : TopLevel env ty v)
    (hk : AllKeys (fun k => (0x00 : Byte) ∉ k) d) (ha : AllScalars plainAtom d) (hf : AllScalars doubleAtom d) (hl : (bdoc (btree d)).length < 2 ^ 31) :
    ∃ bytes p, bsonExport env info mk ty v = .ok bytes ∧
      importValue BsonP.ops env cfg ty old (PI.init (BsonP.ofBytes (bsonBase env ty) (bytes ++ post))) = .ok (v, p) ∧ p.inner.inp.rest = post := by
  obtain ⟨h1, p, h2, h3⟩ := bson_round_trip env info mk cfg ty v old d post hg hm hx hd hs ho hz ht hk ha hf hl
  rw [restored_val env mk hg hnf v ty old hs ho] at h2
  exact ⟨_, p, h1, h2, h3⟩

/-- non-vacuity of C27 -/
example : ∃ bytes p, bsonExport bEnv bInfo [] (.named 1) bNode = .ok bytes ∧
      importValue BsonP.ops bEnv ⟨.Strict, []⟩ (.named 1) (bEnv.dflt 1) (PI.init (BsonP.ofBytes (bsonBase bEnv (.named 1)) (bytes ++ b!"tail"))) = .ok (bNode, p) ∧
      p.inner.inp.rest = b!"tail" :=
  C27_round_trip_partial bEnv bInfo [] ⟨.Strict, []⟩ (.named 1) bNode (bEnv.dflt 1) bNodeDoc _ bEnv_good bEnv_noFilter rfl (by simp) bNode_doc
    bNode_storable (bEnv_good.fresh 1) bNode_sizeKnown bNode_top bNode_keys bNode_plain bNode_doubles bNode_length

/-- C27: a null pointer at the top level, which BSON cannot represent, is refused. -/
theorem C27_null_refused (env : Env) (info : SizeInfo) (mk : Bytes) (t : Ty) (b : Nat) :
    bsonExport env info mk (.uptr t) .null = .throw .std ∧ bsonExport env info mk (.pptr b) .null = .throw .std := ⟨rfl, rfl⟩

/-- C27 is false without these restrictions. (1) Every string that needs escaping comes back as another one. (2) An optional
at the top level is written without the byte that closes the document, so that the import fails. -/
theorem C27_false (env : Env) (info : SizeInfo) (mk : Bytes) (cfg : Cfg) :
    (∀ s : Bytes, ¬ cleanKey s → s.length < 2 ^ 28 → ∃ bytes, bsonExport env info mk .str (.str s) = .ok bytes ∧
      ∀ old, bsonImport env cfg .str old bytes = .ok (.str (escapeString s)) ∧ escapeString s ≠ s) ∧
    (∀ b, ∃ bytes, bsonExport env info mk (.opt .bool) (.some (.bool b)) = .ok bytes ∧ ∀ old w, bsonImport env cfg (.opt .bool) old bytes ≠ .ok w) := by
  constructor
  · intro s hs hl
    refine ⟨_, string_export env info mk s, fun old => ⟨?_, fun h => hs ((escape_length s).2.1 (congrArg List.length h))⟩⟩
    exact string_import env cfg (escapeString s) old (by have := escape_bound s; omega)
  · intro b
    refine ⟨[9, 0, 0, 0, 0x08, 0x30, 0x00, if b then 0x01 else 0x00], ?_, ?_⟩
    · simp [bsonExport, bsonRefuses, bsonPass, ser, run, step, writeKey, element, BPrint.init, bsonBase, closeDoc, bytesOf, Write.bytesIn, bytesIn]
      cases b <;> decide
    · intro old w h
      obtain ⟨⟨v, p⟩, h1, -⟩ := Res.bind_ok h
      exact bson_short (.inr (by cases b <;> decide)) _ env cfg _ old _ h1

/-! ### C28 -/

/-- C28, writing. The bytes stored for a string are those of its JSON escape: the document is that of the string `escapeString s`. -/
theorem C28_stored_escaped (env : Env) (info : SizeInfo) (mk : Bytes) (s : Bytes) :
    bsonExport env info mk .str (.str s) = .ok (bdoc (.scalar (.str (escapeString s)))) := string_export env info mk s

/-- C28, reading. Every stored byte string (quotes, NUL and other control characters included) is read as it is. -/
theorem C28_read_verbatim (env : Env) (cfg : Cfg) (s : Bytes) (hs : s.length < 2 ^ 30) (old : Val) :
    bsonImport env cfg .str old (bdoc (.scalar (.str s))) = .ok (.str s) := string_import env cfg s old (by omega)

/-- C28, for strings without quotes, backslashes and control characters. They are stored as they are, and read back. -/
theorem C28_verbatim_partial (env : Env) (info : SizeInfo) (mk : Bytes) (cfg : Cfg) (s : Bytes) (hc : cleanKey s) (hs : s.length < 2 ^ 30) (old : Val) :
    bsonExport env info mk .str (.str s) = .ok (bdoc (.scalar (.str s))) ∧ bsonImport env cfg .str old (bdoc (.scalar (.str s))) = .ok (.str s) := by
  have := string_export env info mk s
  rw [escape_clean hc] at this
  exact ⟨this, string_import env cfg s old (by omega)⟩

/-- C28 is false of all others: what is stored is longer than the string, and is read back as the longer string. -/
theorem C28_false (env : Env) (info : SizeInfo) (mk : Bytes) (cfg : Cfg) (s : Bytes) (hc : ¬ cleanKey s) (hs : s.length < 2 ^ 28) :
    ∃ s', s.length < s'.length ∧ bsonExport env info mk .str (.str s) = .ok (bdoc (.scalar (.str s'))) ∧
      ∀ old, bsonImport env cfg .str old (bdoc (.scalar (.str s'))) = .ok (.str s') := by
  refine ⟨escapeString s, ?_, string_export env info mk s, fun old => string_import env cfg _ old ?_⟩
  · have := escape_length s
    have h2 : (escapeString s).length ≠ s.length := fun h => hc (this.2.1 h)
    omega
  · have := escape_bound s
    omega

example : cleanKey b!"verbatim" ∧ ¬ cleanKey b!"tab\tstop" ∧ ¬ cleanKey [0x00] := by decide

/-! ### C30 (and C17 for BSON) -/

/-- C30. In Weak mode the elements of a document that are unknown to the class they would go into, at any depth, scalars of all
types, documents and arrays, make no difference: the import, in front of anything, gives exactly what the document without them
(`prune`) gives. -/
theorem C30_unknown_skipped (env : Env) (cfg : Cfg) (hw : cfg.strict = .Weak) (ty : Ty) (old : Val) (t : BTree) (h : Storable32 t)
    (hb : bsonBase env ty = BsonP.rootKind t) (rest rest' : Bytes) :
    bsonImport env cfg ty old (bdoc t ++ rest) = bsonImport env cfg ty old (bdoc (prune bsem env t ty) ++ rest') := by
  rw [bsonImport_doc env cfg t h rest ty hb, bsonImport_doc env cfg _ (prune_storable bsem env ty h) rest' ty (by rw [hb, (prune_type bsem env t ty).2]),
    imp_prune bsem env cfg hw t (bskippable t) ty old]

/-- C30, position: after the import of any document, with any elements skipped, the input stands behind its last byte. -/
theorem C30_position (env : Env) (cfg : Cfg) (ty : Ty) (old v : Val) (t : BTree) (h : Storable32 t)
    (hb : bsonBase env ty = BsonP.rootKind t) (rest : Bytes) (p : PI BsonP)
    (hi : importValue BsonP.ops env cfg ty old (PI.init (BsonP.ofBytes (bsonBase env ty) (bdoc t ++ rest))) = .ok (v, p)) : p.inner.inp.rest = rest := by
  have := bson_import_match env cfg t h rest ty hb old
  rw [hi] at this
  cases he : imp bsem env cfg t ty old with
  | ok a =>
    rw [he] at this
    obtain ⟨s, e, hs⟩ := this
    cases e
    exact hs.1
  | throw e => rw [he] at this; cases this
  | ub => rw [he] at this; cases this (fun _ => bskippable t)

/-- Sample: `{ "zz": { "a": 1.5, "b": [ "x\0y", binary, null ] }, "id": 7, "yy": object id }` with the unknown `zz` and `yy`. -/
def bDoc30 : BTree := .obj [(b!"zz", .obj [(b!"a", .scalar (.fixed .double [0, 0, 0, 0, 0, 0, 0xF8, 0x3F])),
    (b!"b", .arr [.scalar (.str [0x78, 0x00, 0x79]), .scalar (.bin 0x00 [1, 2, 3]), .scalar .null])]),
  (b!"id", .scalar (.int32 7)), (b!"yy", .scalar (.fixed .objectId [1, 2, 3, 4, 5, 6, 7, 8, 9, 10, 11, 12]))]

theorem bDoc30_storable : Storable32 bDoc30 := by
  refine ⟨by simp [bDoc30, AllKeys, AllKeys.members, AllKeys.elems], by simp [bDoc30, AllScalars, AllScalars.members, AllScalars.elems, BScalar.valid, Fixed.width], by decide +kernel⟩

example : bsonImport bEnv ⟨.Weak, []⟩ (.named 0) (.obj [] [.int 0]) (bdoc bDoc30 ++ b!"more") = .ok (.obj [] [.int 7]) := by
  rw [C30_unknown_skipped bEnv ⟨.Weak, []⟩ rfl (.named 0) _ bDoc30 bDoc30_storable rfl _ [],
    bsonImport_doc _ _ _ (prune_storable bsem bEnv _ bDoc30_storable) _ _ rfl]
  rfl

/-- C17 for BSON, Strict and Exact: an unknown element anywhere makes the import fail. -/
theorem C17_bson_strict_rejects (env : Env) (cfg : Cfg) (hs : cfg.strict ≠ .Weak) (ty : Ty) (old : Val) (t : BTree) (h : Storable32 t)
    (hb : bsonBase env ty = BsonP.rootKind t) (rest : Bytes) (d : StructDef) (ms : List (Bytes × BTree)) (hin : Inside bsem env cfg d ms ty t)
    (k : Bytes) (x : BTree) (hk : (k, x) ∈ ms) (hunknown : ∀ m ∈ allMembers d, m.out ≠ k) :
    ∀ w, bsonImport env cfg ty old (bdoc t ++ rest) ≠ .ok w := by
  have hn : d.find k = none := by
    cases hf : d.find k with
    | none => rfl
    | some s => obtain ⟨m, hm, e, -⟩ := find_out hf; exact absurd e (hunknown m hm)
  rw [bsonImport_doc env cfg t h rest ty hb]
  exact inside_fails bsem env cfg (fun old => unknown_fails bsem cfg hs d _ _ (mem_members bsem env cfg hk) hn [] old) hin old

/-- C18 for BSON, first half: after a successful import in Exact mode every object that went into a class had all its members. -/
theorem C18_bson_exact_requires_all (env : Env) (cfg : Cfg) (hs : cfg.strict = .Exact) (ty : Ty) (old w : Val) (t : BTree) (h : Storable32 t)
    (hb : bsonBase env ty = BsonP.rootKind t) (rest : Bytes) (hok : bsonImport env cfg ty old (bdoc t ++ rest) = .ok w) (d : StructDef) (ms : List (Bytes × BTree))
    (hin : Inside bsem env cfg d ms ty t) (hnames : ((allMembers d).map Member.name).Nodup) :
    ∀ m ∈ allMembers d, ∃ k x, (k, x) ∈ ms ∧ k = m.out := by
  rw [bsonImport_doc env cfg t h rest ty hb] at hok
  exact exact_covers bsem env cfg hs hin hnames hok

/-- C19 for BSON: documents that differ only in the order of the members of objects that go into classes are imported to the
same value. -/
theorem C19_bson_order_irrelevant (env : Env) (cfg : Cfg) (ty : Ty) (old w : Val) (t t' : BTree) (h : Storable32 t) (h' : Storable32 t')
    (hb : bsonBase env ty = BsonP.rootKind t) (hb' : bsonBase env ty = BsonP.rootKind t') (rest : Bytes) (hre : Reord bsem env ty t t')
    (hok : bsonImport env cfg ty old (bdoc t ++ rest) = .ok w) : bsonImport env cfg ty old (bdoc t' ++ rest) = .ok w := by
  rw [bsonImport_doc env cfg t h rest ty hb] at hok
  rw [bsonImport_doc env cfg t' h' rest ty hb']
  exact imp_reord bsem env cfg hre old w hok

example (w : Val) : bsonImport bEnv ⟨.Strict, []⟩ (.named 0) (.obj [] [.int 0]) (bdoc bDoc30 ++ []) ≠ .ok w :=
  C17_bson_strict_rejects bEnv ⟨.Strict, []⟩ (by decide) (.named 0) _ bDoc30 bDoc30_storable rfl [] _ _ (.cls rfl .here) b!"yy" _
    (.tail _ (.tail _ (.head _))) (by decide) w

/-- `{ "first": true, "second": false }` and the same in the other order into the sample class 2 of `oddEnv`. -/
example : bsonImport oddEnv ⟨.Exact, []⟩ (.named 2) (.obj [] [.bool false, .none]) (bdoc (.obj [(b!"second", .scalar (.bool false)), (b!"first", .scalar (.bool true))]) ++ []) =
    .ok (.obj [] [.bool true, .some (.bool false)]) := by
  have h : ∀ a b : BTree, (bdoc (.obj [(b!"first", a), (b!"second", b)])).length < 2 ^ 31 → AllKeys (fun k => (0x00 : Byte) ∉ k) a → AllKeys (fun k => (0x00 : Byte) ∉ k) b →
      AllScalars BScalar.valid a → AllScalars BScalar.valid b → Storable32 (.obj [(b!"first", a), (b!"second", b)]) := by
    intro a b h1 h2 h3 h4 h5
    exact ⟨⟨by decide, h2, by decide, h3, trivial⟩, ⟨h4, h5, trivial⟩, h1⟩
  have h1 := h (.scalar (.bool true)) (.scalar (.bool false)) (by decide +kernel) trivial trivial trivial trivial
  have h2 : Storable32 (.obj [(b!"second", .scalar (.bool false)), (b!"first", .scalar (.bool true))]) :=
    ⟨⟨by decide, trivial, by decide, trivial, trivial⟩, ⟨trivial, trivial, trivial⟩, by decide +kernel⟩
  refine C19_bson_order_irrelevant oddEnv ⟨.Exact, []⟩ (.named 2) _ _ (.obj [(b!"first", .scalar (.bool true)), (b!"second", .scalar (.bool false))]) _
    h1 h2 rfl rfl [] (.perm rfl (.swap _ _ []) (by decide)) ?_
  rw [bsonImport_doc _ _ _ h1 _ _ rfl]
  rfl

/-! ### C31 -/

/-- C31, for numbers that the wanted type has: a stored int32 or int64 element is read as the stored number, whatever the type. -/
theorem C31_exact_partial (env : Env) (cfg : Cfg) (k : IntKind) (hk : 0 < k.bits) (v : Int) (hf : InRange k v) (old : Val) (rest : Bytes) :
    ((-2 ^ 31 ≤ v ∧ v < 2 ^ 31) → bsonImport env cfg (.int k) old (bdoc (.scalar (.int32 v)) ++ rest) = .ok (.int v)) ∧
    ((-2 ^ 63 ≤ v ∧ v < 2 ^ 63) → bsonImport env cfg (.int k) old (bdoc (.scalar (.int64 v)) ++ rest) = .ok (.int v)) := by
  constructor
  · intro h
    rw [bsonImport_doc env cfg _ (int32_storable h) rest _ rfl]
    simp [imp, impScalar, bsem, castTo_fits hk (fits_iff.2 hf)]
  · intro h
    rw [bsonImport_doc env cfg _ (int64_storable h) rest _ rfl]
    simp [imp, impScalar, bsem, castTo_fits hk (fits_iff.2 hf)]

/-- C31: elements of every other type are rejected. -/
theorem C31_others_rejected (env : Env) (cfg : Cfg) (k : IntKind) (x : BScalar) (h : Storable32 (.scalar x)) (h1 : ∀ v, x ≠ .int32 v) (h2 : ∀ v, x ≠ .int64 v)
    (old : Val) (rest : Bytes) : bsonImport env cfg (.int k) old (bdoc (.scalar x) ++ rest) = .throw .std := by
  rw [bsonImport_doc env cfg _ h rest _ rfl]
  cases x with
  | int32 v => exact absurd rfl (h1 v)
  | int64 v => exact absurd rfl (h2 v)
  | _ => rfl

/-- C31 is false for every number that the wanted type does not have: it is read, without an error, as another number, namely the
one of that type that is equal to it modulo 2 to the number of bits. -/
theorem C31_false (env : Env) (cfg : Cfg) (k : IntKind) (hk : 0 < k.bits) (v : Int) (hv : -2 ^ 63 ≤ v ∧ v < 2 ^ 63) (hf : ¬ InRange k v) (old : Val) (rest : Bytes) :
    ∃ w, bsonImport env cfg (.int k) old (bdoc (.scalar (.int64 v)) ++ rest) = .ok (.int w) ∧ w ≠ v ∧ InRange k w ∧ (w - v) % 2 ^ k.bits = 0 := by
  have := castTo_in k hk v
  refine ⟨castTo k v, ?_, fun e => hf (e ▸ this.1), this.1, this.2⟩
  rw [bsonImport_doc env cfg _ (int64_storable hv) rest _ rfl]
  simp [imp, impScalar, bsem]

example : ¬ InRange ⟨32, true⟩ (2 ^ 32) ∧ InRange ⟨32, false⟩ (2 ^ 32 - 1) ∧ ¬ InRange ⟨8, false⟩ (-1) := by decide
example : Storable32 (.scalar (.bool true)) := ⟨trivial, trivial, by decide +kernel⟩

/-! ### C33 -/

theorem cut_short (t : BTree) (h : Storable32 t) (n : Nat) (hn : n < (bdoc t).length) : TooShort ((bdoc t).take n) := by
  by_cases h4 : n < 4
  · left; rw [List.length_take]; omega
  · right
    obtain ⟨b, hb⟩ := bdoc_framed t
    have hl := h.length
    rw [List.take_take, Nat.min_eq_left (by omega), List.length_take, Nat.min_eq_left (by omega)]
    rw [hb] at hn hl ⊢
    rw [C26_framed_length b hl]
    omega

/-- C33, except for undefined behaviour (see `C33_false`). Any bytes at all that are fewer than they announce in their first four
bytes: no import of them, in any mode, into any type, succeeds. -/
theorem C33_never_accepted_partial (env : Env) (cfg : Cfg) (ty : Ty) (old : Val) (bytes : Bytes)
    (h : bytes.length < 4 ∨ (bytes.length : Int) < leInt (bytes.take 4)) : ∀ w, bsonImport env cfg ty old bytes ≠ .ok w := by
  intro w e
  obtain ⟨⟨v, p⟩, h1, -⟩ := Res.bind_ok e
  exact bson_short h _ env cfg ty old _ h1

/-- C33 for documents that are cut: any document, any cut point before the end. -/
theorem C33_cut_never_accepted_partial (env : Env) (cfg : Cfg) (ty : Ty) (old : Val) (t : BTree) (h : Storable32 t) (n : Nat) (hn : n < (bdoc t).length) :
    ∀ w, bsonImport env cfg ty old ((bdoc t).take n) ≠ .ok w := C33_never_accepted_partial env cfg ty old _ (cut_short t h n hn)

/-- C33 for exported values. -/
theorem C33_export_cut_partial (env : Env) (info : SizeInfo) (mk : Bytes) (cfg : Cfg) (ty : Ty) (v old : Val) (d : Doc) (hd : docOf env mk ty v = .ok d)
    (hz : SizeKnown env info false ty v) (ha : AllScalars plainAtom d) (ht : TopLevel env ty v) (hk : AllKeys (fun k => (0x00 : Byte) ∉ k) d)
    (hl : (bdoc (btree d)).length < 2 ^ 31) :
    ∃ bytes, bsonExport env info mk ty v = .ok bytes ∧ ∀ n < bytes.length, ∀ w, bsonImport env cfg ty old (bytes.take n) ≠ .ok w :=
  ⟨_, bsonExport_doc env info mk ty v d hd hz ha ht, fun n hn => C33_cut_never_accepted_partial env cfg ty old _ ⟨bkeys d hk, bvalid d, hl⟩ n hn⟩

/-- C33 is false as stated: not every cut document makes the import fail in a defined way. If fewer than four bytes of the
length are there, an indeterminate value is used. -/
theorem C33_false (env : Env) (cfg : Cfg) (old : Val) : bsonImport env cfg .bool old ((bdoc (.scalar (.bool true))).take 2) = .ub := by
  have e : (bdoc (.scalar (.bool true))).take 2 = [9, 0] := by decide
  rw [e]
  rfl

example : ∃ bytes, bsonExport bEnv bInfo [] (.named 1) bNode = .ok bytes ∧ ∀ n < bytes.length, ∀ w, bsonImport bEnv ⟨.Weak, []⟩ (.named 1) (bEnv.dflt 1) (bytes.take n) ≠ .ok w :=
  C33_export_cut_partial bEnv bInfo [] _ _ _ _ _ bNode_doc bNode_sizeKnown bNode_plain bNode_top bNode_keys bNode_length

/-! ### C24 for BSON -/

theorem element_chars {type : Byte} {body : List Write} {s s' : St} {ws : List Write} (hb : ∀ w ∈ body, ∃ b, w = .chars b) (h : element type body s = .ok (ws, s')) : ∀ w ∈ ws, ∃ b, w = .chars b := by
  unfold element writeKey at h
  split at h
  · split at h
    · simp at h; obtain ⟨rfl, -⟩ := h; simp; exact hb
    · cases h
  · simp at h; obtain ⟨rfl, -⟩ := h; simp; exact hb
  · simp at h; obtain ⟨rfl, -⟩ := h; simp; exact hb

theorem step_chars {c : Cmd} {s s' : St} {ws : List Write} (h : step c s = .ok (ws, s')) : ∀ w ∈ ws, ∃ b, w = .chars b := by
  cases c with
  | openMap n =>
    simp only [step, writeKey] at h
    split at h
    · split at h
      · simp at h; obtain ⟨rfl, -⟩ := h; simp
      · cases h
    · simp at h; obtain ⟨rfl, -⟩ := h; simp
    · simp at h; obtain ⟨rfl, -⟩ := h; simp
  | openArray n =>
    simp only [step, writeKey] at h
    split at h
    · split at h
      · simp at h; obtain ⟨rfl, -⟩ := h; simp
      · cases h
    · simp at h; obtain ⟨rfl, -⟩ := h; simp
    · simp at h; obtain ⟨rfl, -⟩ := h; simp
  | closeMap =>
    simp only [step] at h
    repeat' split at h
    all_goals first
      | (cases h; done)
      | (cases h; simp)
  | closeArray =>
    simp only [step] at h
    repeat' split at h
    all_goals first
      | (cases h; done)
      | (cases h; simp)
  | addKey k =>
    simp only [step] at h
    repeat' split at h
    all_goals first
      | (cases h; done)
      | (cases h; simp)
  | addInt k i => exact element_chars (by simp) h
  | addFlt f x => exact element_chars (by simp) h
  | addBool b => exact element_chars (by simp) h
  | addStr t => exact element_chars (by simp; rintro a (⟨b, -, rfl⟩ | rfl) <;> exact ⟨_, rfl⟩) h
  | addNull => exact element_chars (by simp) h

theorem run_chars : ∀ (cs : List Cmd) (s : St) (ws : List Write) (s' : St), run cs s = .ok (ws, s') → ∀ w ∈ ws, ∃ b, w = .chars b
  | [], s, ws, s', h => by cases h; simp
  | c :: cs, s, ws, s', h => by
    obtain ⟨⟨a, s1⟩, h1, h⟩ := Res.bind_ok h
    obtain ⟨⟨b, s2⟩, h2, h⟩ := Res.bind_ok h
    cases h
    intro t ht
    rcases List.mem_append.1 ht with ht | ht
    · exact step_chars h1 t ht
    · exact run_chars cs s1 b _ h2 t ht

/-- C24 for BSON, without restrictions: for every value of every type, the export to a `std::string` ends as the export to a
stream does; in particular the buffer is never exceeded. -/
theorem C24_bson_export_to_string (env : Env) (info : SizeInfo) (mk : Bytes) (ty : Ty) (v : Val) (old : Bytes) :
    bsonExportString env info mk ty v old = bsonExport env info mk ty v := by
  unfold bsonExportString bsonExport
  split
  · rfl
  cases hp : bsonPass env info mk ty v with
  | throw e => rfl
  | ub => rfl
  | ok ws =>
    have hc : ∀ w ∈ ws, ∃ b, w = .chars b := by
      unfold bsonPass at hp
      obtain ⟨cmds, -, hp⟩ := Res.bind_ok hp
      obtain ⟨⟨ws1, s1⟩, h2, hp⟩ := Res.bind_ok hp
      cases hp
      intro t ht
      rcases List.mem_append.1 ht with ht | ht
      · exact run_chars cmds _ _ _ h2 t ht
      · unfold closeDoc at ht
        split at ht <;> simp at ht
        exact ⟨_, ht⟩
    obtain ⟨s1, s2, s3, e1, e2, e3, -, e4, -⟩ := C24_two_passes ws old true (fun w hw => by obtain ⟨b, rfl⟩ := hc w hw; trivial)
    have e5 : bytesIn stringText ws = bytesOf ws := by
      exact congrArg List.flatten (List.map_congr_left fun w hw => by obtain ⟨b, rfl⟩ := hc w hw; rfl)
    simp only [Res.ok_bind, e1, e2, e3, Res.pure_eq, e4, e5]

end Thors.Props
