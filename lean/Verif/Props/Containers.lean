import Verif.Props.Samples
import Verif.Proofs.ImpMembers
/-
C39: repeated keys in objects imported into associative containers. C40: arrays imported into fixed-size
containers.
-/
namespace Thors.Props
open Thors Spec StrIn

/-! ### Vocabulary: sequences of key/value pairs -/

/-- The value of the first pair with the key. -/
def firstOf (key : Bytes) (kvs : List (Bytes × Val)) : Option Val := (kvs.find? (fun p => decide (p.1 = key))).map Prod.snd
/-- The value of the last pair with the key. -/
def lastOf (key : Bytes) (kvs : List (Bytes × Val)) : Option Val := firstOf key kvs.reverse
/-- The values of all pairs with the key, in order. -/
def allOf (key : Bytes) (kvs : List (Bytes × Val)) : List Val := (kvs.filter (fun p => decide (p.1 = key))).map Prod.snd

/-- A member of a document together with the value it is to have. -/
structure Entry where
  key : JStr
  tree : JTree
  val : Val

/-- The members as a document. -/
def docOf (es : List Entry) : JTree := .obj (es.map fun e => (e.key, e.tree))
/-- The pairs the document stands for. -/
def pairsOf (conv : Bool) (es : List Entry) : List (Bytes × Val) := es.map fun e => ((jsem conv).key e.key, e.val)

/-! ### Proofs -/

theorem impDict_fold {conv : Bool} {env : Env} {cfg : Cfg} {t : Ty} (kind : DictKind) (ins : Bytes → Val → List (Bytes × Val) → List (Bytes × Val))
    (hins : ins = match kind with | .sorted => dictSet | .multi => multiInsert | .unordered => uniqueInsert)
    (es : List Entry) (h : ∀ e ∈ es, (if kind = .sorted then ∀ old, imp (jsem conv) env cfg e.tree t old = .ok e.val
      else imp (jsem conv) env cfg e.tree t (t.default env) = .ok e.val)) :
    ∀ kvs, impDict (jsem conv) env kind t (imp.members (jsem conv) env cfg (es.map fun e => (e.key, e.tree))) kvs =
      .ok (.dict ((pairsOf conv es).foldl (fun acc p => ins p.1 p.2 acc) kvs)) := by
  subst hins
  induction es with
  | nil => intro kvs; simp [imp.members, impDict, pairsOf]
  | cons e es ih =>
    intro kvs
    have h1 := h e (by simp)
    have h2 := ih (fun e he => h e (by simp [he]))
    cases kind with
    | sorted =>
      simp only [if_true] at h1
      simp only [List.map_cons, imp.members, impDict, h1, Res.ok_bind, h2]
      rfl
    | multi =>
      simp only [reduceCtorEq, if_false] at h1
      simp only [List.map_cons, imp.members, impDict, h1, Res.ok_bind, h2]
      rfl
    | unordered =>
      simp only [reduceCtorEq, if_false] at h1
      simp only [List.map_cons, imp.members, impDict, h1, Res.ok_bind, h2]
      rfl

theorem firstOf_nil (key : Bytes) : firstOf key [] = none := rfl
theorem firstOf_cons (key : Bytes) (p : Bytes × Val) (kvs : List (Bytes × Val)) :
    firstOf key (p :: kvs) = if p.1 = key then some p.2 else firstOf key kvs := by
  unfold firstOf
  by_cases h : p.1 = key <;> simp [List.find?_cons, h]
theorem dictGet_first (key : Bytes) (kvs : List (Bytes × Val)) : dictGet key kvs = firstOf key kvs := by
  induction kvs with
  | nil => rfl
  | cons p kvs ih => rw [firstOf_cons, ← ih]; rfl
theorem firstOf_append (key : Bytes) (a b : List (Bytes × Val)) : firstOf key (a ++ b) = (firstOf key a).or (firstOf key b) := by
  induction a with
  | nil => simp [firstOf_nil]
  | cons p a ih =>
    simp only [List.cons_append, firstOf_cons, ih]
    split <;> simp
theorem lastOf_cons (key : Bytes) (p : Bytes × Val) (kvs : List (Bytes × Val)) :
    lastOf key (p :: kvs) = (lastOf key kvs).or (if p.1 = key then some p.2 else none) := by
  unfold lastOf
  rw [List.reverse_cons, firstOf_append, firstOf_cons, firstOf_nil]

theorem keyLt_irrefl : ∀ a : Bytes, keyLt a a = false
  | [] => rfl
  | a :: as => by simp [keyLt, keyLt_irrefl as]
theorem keyLt_trans : ∀ {a b c : Bytes}, keyLt a b = true → keyLt b c = true → keyLt a c = true
  | [], [], _, h, _ => by simp [keyLt] at h
  | [], _ :: _, [], _, h => by simp [keyLt] at h
  | [], _ :: _, _ :: _, _, _ => by simp [keyLt]
  | _ :: _, [], _, h, _ => by simp [keyLt] at h
  | _ :: _, _ :: _, [], _, h => by simp [keyLt] at h
  | x :: xs, y :: ys, z :: zs, h1, h2 => by
    simp only [keyLt, Bool.or_eq_true, Bool.and_eq_true, decide_eq_true_eq] at h1 h2 ⊢
    rcases h1 with h1 | ⟨rfl, h1⟩ <;> rcases h2 with h2 | ⟨rfl, h2⟩
    · exact .inl (UInt8.lt_trans h1 h2)
    · exact .inl h1
    · exact .inl h2
    · exact .inr ⟨rfl, keyLt_trans h1 h2⟩
theorem keyLt_total : ∀ {a b : Bytes}, a ≠ b → keyLt a b = false → keyLt b a = true
  | [], [], h, _ => absurd rfl h
  | [], _ :: _, _, h => by simp [keyLt] at h
  | _ :: _, [], _, _ => by simp [keyLt]
  | x :: xs, y :: ys, h, h1 => by
    simp only [keyLt, Bool.or_eq_false_iff, Bool.and_eq_false_imp, decide_eq_false_iff_not, decide_eq_true_eq] at h1
    simp only [keyLt, Bool.or_eq_true, Bool.and_eq_true, decide_eq_true_eq]
    by_cases hxy : x = y
    · subst hxy
      exact .inr ⟨rfl, keyLt_total (fun e => h (by rw [e])) (h1.2 rfl)⟩
    · left
      rcases Nat.lt_trichotomy x.toNat y.toNat with h2 | h2 | h2
      · exact absurd (UInt8.lt_iff_toNat_lt.mpr h2) h1.1
      · exact absurd (UInt8.toNat_inj.mp h2) hxy
      · exact UInt8.lt_iff_toNat_lt.mpr h2

/-- Strictly ascending keys: the order of a `std::map`, which also has no key twice. -/
def Ascending (kvs : List (Bytes × Val)) : Prop := kvs.Pairwise fun p q => keyLt p.1 q.1 = true
/-- Keys in order, the order of a `std::multimap`. -/
def InOrder (kvs : List (Bytes × Val)) : Prop := kvs.Pairwise fun p q => keyLt q.1 p.1 = false

theorem dictSet_mem {key : Bytes} {v : Val} {kvs : List (Bytes × Val)} {p : Bytes × Val} (h : p ∈ dictSet key v kvs) : p.1 = key ∨ p ∈ kvs := by
  induction kvs with
  | nil => simp only [dictSet, List.mem_singleton] at h; exact .inl (by rw [h])
  | cons q kvs ih =>
    obtain ⟨k, w⟩ := q
    rw [dictSet] at h
    split at h
    · rename_i hk
      rcases List.mem_cons.mp h with rfl | h
      · exact .inl hk
      · exact .inr (by simp [h])
    · split at h
      · rcases List.mem_cons.mp h with rfl | h
        · exact .inl rfl
        · exact .inr h
      · rcases List.mem_cons.mp h with rfl | h
        · exact .inr (by simp)
        · rcases ih h with h | h
          · exact .inl h
          · exact .inr (by simp [h])

theorem ascending_dictSet {key : Bytes} {v : Val} {kvs : List (Bytes × Val)} (h : Ascending kvs) : Ascending (dictSet key v kvs) := by
  induction kvs with
  | nil => simp [dictSet, Ascending]
  | cons q kvs ih =>
    obtain ⟨k, w⟩ := q
    obtain ⟨h1, h2⟩ := List.pairwise_cons.mp h
    rw [dictSet]
    split
    · exact List.pairwise_cons.mpr ⟨h1, h2⟩
    · rename_i hk
      split
      · rename_i hlt
        refine List.pairwise_cons.mpr ⟨?_, h⟩
        intro p hp
        rcases List.mem_cons.mp hp with rfl | hp
        · exact hlt
        · exact keyLt_trans hlt (h1 p hp)
      · rename_i hlt
        refine List.pairwise_cons.mpr ⟨?_, ih h2⟩
        intro p hp
        rcases dictSet_mem hp with e | hp
        · rw [e]; exact keyLt_total (fun e => hk e.symm) (by simpa using hlt)
        · exact h1 p hp

theorem firstOf_dictSet {key : Bytes} {v : Val} {kvs : List (Bytes × Val)} (h : Ascending kvs) (k : Bytes) :
    firstOf k (dictSet key v kvs) = if key = k then some v else firstOf k kvs := by
  induction kvs with
  | nil => simp [dictSet, firstOf_cons, firstOf_nil]
  | cons q kvs ih =>
    obtain ⟨k', w⟩ := q
    obtain ⟨h1, h2⟩ := List.pairwise_cons.mp h
    rw [dictSet]
    split
    · rename_i hk
      simp only [firstOf_cons, hk]
      split <;> rfl
    · rename_i hk
      split
      · rename_i hlt
        simp only [firstOf_cons]
      · simp only [firstOf_cons, ih h2]
        by_cases h3 : k' = k
        · rw [if_pos h3, if_neg (fun h => hk (h3.trans h.symm)), if_pos h3]
        · rw [if_neg h3, if_neg h3]

theorem fold_sorted (ps : List (Bytes × Val)) : ∀ kvs, Ascending kvs →
    Ascending (ps.foldl (fun acc p => dictSet p.1 p.2 acc) kvs) ∧
    ∀ k, firstOf k (ps.foldl (fun acc p => dictSet p.1 p.2 acc) kvs) = (lastOf k ps).or (firstOf k kvs) := by
  induction ps with
  | nil => intro kvs h; exact ⟨h, fun k => by simp [lastOf, firstOf_nil]⟩
  | cons p ps ih =>
    intro kvs h
    obtain ⟨h1, h2⟩ := ih _ (ascending_dictSet (key := p.1) (v := p.2) h)
    refine ⟨h1, fun k => ?_⟩
    rw [List.foldl_cons, h2, firstOf_dictSet h, lastOf_cons]
    cases lastOf k ps <;> simp
    split <;> simp

theorem nodup_unique {key : Bytes} {v : Val} {kvs : List (Bytes × Val)} (h : (kvs.map Prod.fst).Nodup) : ((uniqueInsert key v kvs).map Prod.fst).Nodup := by
  unfold uniqueInsert
  split
  · exact h
  · rename_i hn
    rw [List.map_append, List.nodup_append]
    refine ⟨h, by simp, ?_⟩
    intro a ha b hb
    simp only [List.map_cons, List.map_nil, List.mem_singleton] at hb
    subst hb
    rintro rfl
    apply hn
    obtain ⟨q, hq, rfl⟩ := List.mem_map.mp ha
    rw [dictGet_first]
    unfold firstOf
    rw [Option.isSome_map, List.find?_isSome]
    exact ⟨q, hq, by simp⟩

theorem firstOf_unique (key : Bytes) (v : Val) (kvs : List (Bytes × Val)) (k : Bytes) :
    firstOf k (uniqueInsert key v kvs) = (firstOf k kvs).or (if key = k then some v else none) := by
  unfold uniqueInsert
  rw [dictGet_first]
  split
  · rename_i h
    split
    · rename_i e
      subst e
      cases hh : firstOf key kvs with
      | none => rw [hh] at h; simp at h
      | some x => rfl
    · simp
  · rw [firstOf_append, firstOf_cons, firstOf_nil]

theorem fold_unique (ps : List (Bytes × Val)) : ∀ kvs : List (Bytes × Val), (kvs.map Prod.fst).Nodup →
    ((ps.foldl (fun acc p => uniqueInsert p.1 p.2 acc) kvs).map Prod.fst).Nodup ∧
    ∀ k, firstOf k (ps.foldl (fun acc p => uniqueInsert p.1 p.2 acc) kvs) = (firstOf k kvs).or (firstOf k ps) := by
  induction ps with
  | nil => intro kvs h; exact ⟨h, fun k => by simp [firstOf_nil]⟩
  | cons p ps ih =>
    intro kvs h
    obtain ⟨h1, h2⟩ := ih _ (nodup_unique (key := p.1) (v := p.2) h)
    refine ⟨h1, fun k => ?_⟩
    rw [List.foldl_cons, h2, firstOf_unique, firstOf_cons]
    cases firstOf k kvs <;> simp
    split <;> simp

theorem allOf_cons (key : Bytes) (p : Bytes × Val) (kvs : List (Bytes × Val)) :
    allOf key (p :: kvs) = (if p.1 = key then [p.2] else []) ++ allOf key kvs := by
  unfold allOf
  by_cases h : p.1 = key <;> simp [h]
theorem allOf_append (key : Bytes) (a b : List (Bytes × Val)) : allOf key (a ++ b) = allOf key a ++ allOf key b := by
  simp [allOf]

theorem multi_mem {key : Bytes} {v : Val} {kvs : List (Bytes × Val)} {p : Bytes × Val} (h : p ∈ multiInsert key v kvs) : p.1 = key ∨ p ∈ kvs := by
  induction kvs with
  | nil => simp only [multiInsert, List.mem_singleton] at h; exact .inl (by rw [h])
  | cons q kvs ih =>
    rw [multiInsert] at h
    split at h
    · rcases List.mem_cons.mp h with rfl | h
      · exact .inl rfl
      · exact .inr h
    · rcases List.mem_cons.mp h with rfl | h
      · exact .inr (by simp)
      · rcases ih h with h | h
        · exact .inl h
        · exact .inr (by simp [h])

theorem keyLt_asymm {a b : Bytes} (h : keyLt a b = true) : keyLt b a = false := by
  cases h' : keyLt b a with
  | false => rfl
  | true => have := keyLt_trans h h'; rw [keyLt_irrefl] at this; exact this.symm

theorem order_multi {key : Bytes} {v : Val} {kvs : List (Bytes × Val)} (h : InOrder kvs) : InOrder (multiInsert key v kvs) := by
  induction kvs with
  | nil => simp [multiInsert, InOrder]
  | cons q kvs ih =>
    obtain ⟨k, w⟩ := q
    obtain ⟨h1, h2⟩ := List.pairwise_cons.mp h
    rw [multiInsert]
    split
    · rename_i hlt
      refine List.pairwise_cons.mpr ⟨?_, h⟩
      intro p hp
      rcases List.mem_cons.mp hp with rfl | hp
      · exact keyLt_asymm hlt
      · cases h' : keyLt p.1 key with
        | false => rfl
        | true => have := keyLt_trans h' hlt; rw [h1 p hp] at this; exact absurd this (by simp)
    · rename_i hlt
      refine List.pairwise_cons.mpr ⟨?_, ih h2⟩
      intro p hp
      rcases multi_mem hp with e | hp
      · rw [e]; simpa using hlt
      · exact h1 p hp

theorem allOf_multi {key : Bytes} {v : Val} {kvs : List (Bytes × Val)} (h : InOrder kvs) (k : Bytes) :
    allOf k (multiInsert key v kvs) = allOf k kvs ++ (if key = k then [v] else []) := by
  induction kvs with
  | nil =>
    rw [multiInsert, allOf_cons]
    simp [allOf]
  | cons q kvs ih =>
    obtain ⟨k', w⟩ := q
    obtain ⟨h1, h2⟩ := List.pairwise_cons.mp h
    rw [multiInsert]
    split
    · rename_i hlt
      rw [allOf_cons]
      by_cases hk : key = k
      · subst hk
        have hne : ∀ p ∈ ((k', w) :: kvs), p.1 ≠ key := by
          intro p hp
          rcases List.mem_cons.mp hp with rfl | hp
          · rintro rfl; simp only at hlt; rw [keyLt_irrefl] at hlt; simp at hlt
          · rintro rfl; have := h1 p hp; simp only at this; rw [hlt] at this; simp at this
        have : allOf key ((k', w) :: kvs) = [] := by
          unfold allOf
          rw [List.filter_eq_nil_iff.mpr (by intro p hp; simpa using hne p hp)]
          rfl
        rw [this]; simp
      · simp [hk]
    · rw [allOf_cons, ih h2, allOf_cons, List.append_assoc]

theorem fold_multi (ps : List (Bytes × Val)) : ∀ kvs : List (Bytes × Val), InOrder kvs →
    InOrder (ps.foldl (fun acc p => multiInsert p.1 p.2 acc) kvs) ∧
    ∀ k, allOf k (ps.foldl (fun acc p => multiInsert p.1 p.2 acc) kvs) = allOf k kvs ++ allOf k ps := by
  induction ps with
  | nil => intro kvs h; exact ⟨h, fun k => by simp [allOf]⟩
  | cons p ps ih =>
    intro kvs h
    obtain ⟨h1, h2⟩ := ih _ (order_multi (key := p.1) (v := p.2) h)
    refine ⟨h1, fun k => ?_⟩
    rw [List.foldl_cons, h2, allOf_multi h, allOf_cons, List.append_assoc]

/-! ### C39 -/

/-- C39 for `std::map`, proved part: an object is imported into a map that may already have elements. The result
is a map (its keys ascend, none twice), and every key has the last value the document gives it, else the one
it had. The hypothesis `hval`: the value of a member does not depend on what was there before. Missing:
element types for which it does, for which the claim is false (`C39_false_for_containers`). -/
theorem C39_map_last_wins_partial (env : Env) (cfg : Cfg) (conv : Bool) (t : Ty) (es : List Entry) (text : Bytes) (old : List (Bytes × Val))
    (hdoc : JDoc codePair (docOf es) text) (hold : Ascending old)
    (hval : ∀ e ∈ es, ∀ w, imp (jsem conv) env cfg e.tree t w = .ok e.val) :
    ∃ new, jsonImport env cfg conv (.smap t) (.dict old) text = .ok (.dict new) ∧ Ascending new ∧
      ∀ k, firstOf k new = (lastOf k (pairsOf conv es)).or (firstOf k old) := by
  have h1 := impDict_fold (conv := conv) (env := env) (cfg := cfg) (t := t) .sorted _ rfl es (by simpa using hval) old
  have h2 : imp (jsem conv) env cfg (docOf es) (.smap t) (.dict old) = _ := h1
  obtain ⟨h3, h4⟩ := fold_sorted (pairsOf conv es) old hold
  exact ⟨_, by rw [jsonImport_doc env cfg hdoc _ _ (.inr (by rw [h2]; simp)), h2], h3, h4⟩

/-- The types whose import overwrites: `hval` above holds for them. -/
theorem overwrites {conv : Bool} {env : Env} {cfg : Cfg} (v : JTree) (t : Ty)
    (ht : t = .bool ∨ t = .str ∨ (∃ k, t = .int k) ∨ (∃ u, t = .uptr u) ∨ (∃ b, t = .pptr b) ∨ (∃ i tab, t = .named i ∧ env.defs i = .enum tab) ∨
      (∃ i alts, t = .named i ∧ env.defs i = .variant alts))
    (w w' : Val) : imp (jsem conv) env cfg v t w = imp (jsem conv) env cfg v t w' := by
  rcases ht with rfl | rfl | ⟨k, rfl⟩ | ⟨u, rfl⟩ | ⟨b, rfl⟩ | ⟨i, tab, rfl, h⟩ | ⟨i, alts, rfl, h⟩ <;> cases v <;>
    simp only [imp, impScalar, impArr, impObj, *]

/-- C39 for `std::unordered_map`: the first value wins, and a key that was there before keeps its value. -/
theorem C39_unordered_first_wins (env : Env) (cfg : Cfg) (conv : Bool) (t : Ty) (es : List Entry) (text : Bytes) (old : List (Bytes × Val))
    (hdoc : JDoc codePair (docOf es) text) (hold : (old.map Prod.fst).Nodup)
    (hval : ∀ e ∈ es, imp (jsem conv) env cfg e.tree t (t.default env) = .ok e.val) :
    ∃ new, jsonImport env cfg conv (.umap t) (.dict old) text = .ok (.dict new) ∧ (new.map Prod.fst).Nodup ∧
      ∀ k, firstOf k new = (firstOf k old).or (firstOf k (pairsOf conv es)) := by
  have h1 := impDict_fold (conv := conv) (env := env) (cfg := cfg) (t := t) .unordered _ rfl es (by simpa using hval) old
  have h2 : imp (jsem conv) env cfg (docOf es) (.umap t) (.dict old) = _ := h1
  obtain ⟨h3, h4⟩ := fold_unique (pairsOf conv es) old hold
  exact ⟨_, by rw [jsonImport_doc env cfg hdoc _ _ (.inr (by rw [h2]; simp)), h2], h3, h4⟩

/-- C39 for `std::multimap`: every value is kept, those of one key in document order behind the ones that were
there before, and the keys are in order. -/
theorem C39_multimap_keeps_all (env : Env) (cfg : Cfg) (conv : Bool) (t : Ty) (es : List Entry) (text : Bytes) (old : List (Bytes × Val))
    (hdoc : JDoc codePair (docOf es) text) (hold : InOrder old)
    (hval : ∀ e ∈ es, imp (jsem conv) env cfg e.tree t (t.default env) = .ok e.val) :
    ∃ new, jsonImport env cfg conv (.mmap t) (.dict old) text = .ok (.dict new) ∧ InOrder new ∧
      ∀ k, allOf k new = allOf k old ++ allOf k (pairsOf conv es) := by
  have h1 := impDict_fold (conv := conv) (env := env) (cfg := cfg) (t := t) .multi _ rfl es (by simpa using hval) old
  have h2 : imp (jsem conv) env cfg (docOf es) (.mmap t) (.dict old) = _ := h1
  obtain ⟨h3, h4⟩ := fold_multi (pairsOf conv es) old hold
  exact ⟨_, by rw [jsonImport_doc env cfg hdoc _ _ (.inr (by rw [h2]; simp)), h2], h3, h4⟩

/-- Sample: `{"b":1,"a":2,"b":3}`. -/
def dupEntries : List Entry :=
  [⟨Samples.jstr b!"b", Samples.num 1, .int 1⟩, ⟨Samples.jstr b!"a", Samples.num 2, .int 2⟩, ⟨Samples.jstr b!"b", Samples.num 3, .int 3⟩]

/-- non-vacuity: the hypotheses of the three theorems hold for `{"b":1,"a":2,"b":3}` into a container of `int` that
already has the key `a`, and the conclusions say different things about `b`. -/
example : JDoc codePair (docOf dupEntries) b!"{\"b\":1,\"a\":2,\"b\":3}" ∧ Ascending [(b!"a", .int 9)] ∧ InOrder [(b!"a", .int 9)] ∧
    (∀ e ∈ dupEntries, ∀ w, imp (jsem true) Samples.env ⟨.Strict, []⟩ e.tree Samples.int32 w = .ok e.val) ∧
    lastOf b!"b" (pairsOf true dupEntries) = some (.int 3) ∧ firstOf b!"b" (pairsOf true dupEntries) = some (.int 1) ∧
    allOf b!"b" (pairsOf true dupEntries) = [.int 1, .int 3] := by
  refine ⟨Samples.plain_doc _ (by decide), by simp [Ascending], by simp [InOrder], ?_, rfl, rfl, rfl⟩
  intro e he w
  simp only [dupEntries, List.mem_cons, List.not_mem_nil, or_false] at he
  rcases he with rfl | rfl | rfl <;> rfl

/-- C39 is false in full: `{"a":[1],"a":[2]}` into a `std::map<std::string, std::vector<int>>` gives `a` the value
`[1,2]`, neither of the two values. -/
theorem C39_false_for_containers :
    ¬ ∀ (env : Env) (cfg : Cfg) (conv : Bool) (t : Ty) (es : List Entry) (text : Bytes),
      JDoc codePair (docOf es) text → (∀ e ∈ es, imp (jsem conv) env cfg e.tree t (t.default env) = .ok e.val) →
      ∃ new, jsonImport env cfg conv (.smap t) (.dict []) text = .ok (.dict new) ∧ ∀ k, firstOf k new = lastOf k (pairsOf conv es) := by
  intro h
  obtain ⟨new, e, h1⟩ := h Samples.env ⟨.Strict, []⟩ true (.vec Samples.int32)
    [⟨Samples.jstr b!"a", .arr [Samples.num 1], .list [.int 1]⟩, ⟨Samples.jstr b!"a", .arr [Samples.num 2], .list [.int 2]⟩] _
    (Samples.plain_doc _ (by decide)) (by
      intro e he
      simp only [List.mem_cons, List.not_mem_nil, or_false] at he
      rcases he with rfl | rfl <;> rfl)
  rw [jsonImport_doc _ _ (Samples.plain_doc _ (by decide)) _ _ (.inl (by decide))] at e
  have e' : Res.ok (Val.dict [(b!"a", .list [.int 1, .int 2])]) = Res.ok (Val.dict new) := e
  injection e' with e'
  injection e' with e'
  subst e'
  have h2 := h1 b!"a"
  have h3 : some (Val.list [.int 1, .int 2]) = some (Val.list [.int 2]) := h2
  simp at h3

/-! ### C40 -/

/-- C40 as claimed: importing an array never leaves the container (never `ub`). -/
def C40_claim (ty : Ty) (vs : List Val) : Prop :=
  ∀ (env : Env) (cfg : Cfg) (conv : Bool) (t : Bytes) (v : JTree), JDoc codePair v t →
    jsonImport env cfg conv ty (.list vs) t ≠ .ub

theorem impFix_within {tyAt : Nat → Option Ty} : ∀ (es : List Imp) (i : Nat) (vs : List Val),
    (∀ j, i ≤ j → j < i + es.length → (tyAt j).isSome ∧ j < vs.length) →
    (∀ e ∈ es, ∀ j t w, tyAt j = some t → e t w ≠ .ub) → impFix tyAt es i vs ≠ .ub := by
  intro es
  induction es with
  | nil => intro i vs _ _; simp [impFix]
  | cons e es ih =>
    intro i vs h hub
    obtain ⟨h1, h2⟩ := h i (Nat.le_refl _) (by simp)
    obtain ⟨t, ht⟩ := Option.isSome_iff_exists.mp h1
    rw [impFix, ht, List.getElem?_eq_getElem h2]
    refine Res.bind_ne_ub (hub e (by simp) i t _ ht) ?_
    intro v _
    refine ih _ _ ?_ (fun e he => hub e (by simp [he]))
    intro j hj1 hj2
    have := h j (by omega) (by simp; omega)
    simpa using this

theorem impFix_over {tyAt : Nat → Option Ty} : ∀ (es : List Imp) (i : Nat) (vs : List Val), i ≤ vs.length →
    vs.length < i + es.length → (∀ e ∈ es, ∀ j t w, tyAt j = some t → ∃ x, e t w = .ok x) → impFix tyAt es i vs = .ub := by
  intro es
  induction es with
  | nil => intro i vs h1 h; simp at h; omega
  | cons e es ih =>
    intro i vs h1 h hok
    rw [impFix]
    split
    · rename_i t w ht hw
      obtain ⟨x, hx⟩ := hok e (by simp) i t w ht
      rw [hx, Res.ok_bind]
      have hi : i < vs.length := by
        rcases Nat.lt_or_ge i vs.length with h2 | h2
        · exact h2
        · rw [List.getElem?_eq_none h2] at hw; simp at hw
      exact ih _ _ (by simp; omega) (by simp; simp at h; omega) (fun e he => hok e (by simp [he]))
    · rfl

/-- C40, proved part for `std::array<T, n>`: arrays of at most `n` elements stay inside. Missing: longer ones, for
which it is false, see `C40_array_overrun`. -/
theorem C40_array_inside_partial (env : Env) (cfg : Cfg) (conv : Bool) (n : Nat) (ty : Ty) (old : List Val) (ts : List JTree) (t : Bytes)
    (hdoc : JDoc codePair (.arr ts) t) (hn : old.length = n) (hlen : ts.length ≤ n)
    (hskip : (Tr.arr ts : JTree).skippable (jsem conv) = true)
    (hel : ∀ x ∈ ts, ∀ w, imp (jsem conv) env cfg x ty w ≠ .ub) :
    jsonImport env cfg conv (.arr n ty) (.list old) t ≠ .ub := by
  rw [jsonImport_doc env cfg hdoc _ _ (.inl fun _ => hskip)]
  show impFix _ _ _ _ ≠ .ub
  apply impFix_within
  · intro j _ hj
    rw [elems_eq, List.length_map] at hj
    rw [if_pos (by omega)]
    simp; omega
  · intro e he j t' w ht
    rw [elems_eq] at he
    obtain ⟨x, hx, rfl⟩ := List.mem_map.mp he
    split at ht
    · injection ht with ht; subst ht; exact hel x hx w
    · simp at ht

/-- C40, proved part for `std::tuple`. -/
theorem C40_tuple_inside_partial (env : Env) (cfg : Cfg) (conv : Bool) (i : Nat) (tys : List Ty) (old : List Val) (ts : List JTree) (t : Bytes)
    (hdef : env.defs i = .tuple tys) (hdoc : JDoc codePair (.arr ts) t) (hn : old.length = tys.length) (hlen : ts.length ≤ tys.length)
    (hskip : (Tr.arr ts : JTree).skippable (jsem conv) = true)
    (hel : ∀ x ∈ ts, ∀ ty ∈ tys, ∀ w, imp (jsem conv) env cfg x ty w ≠ .ub) :
    jsonImport env cfg conv (.named i) (.list old) t ≠ .ub := by
  rw [jsonImport_doc env cfg hdoc _ _ (.inl fun _ => hskip)]
  have : imp (jsem conv) env cfg (.arr ts) (.named i) (.list old) = impFix (fun i => tys[i]?) (imp.elems (jsem conv) env cfg ts) 0 old := by
    simp only [imp, impArr, hdef]
  rw [this]
  apply impFix_within
  · intro j _ hj
    rw [elems_eq, List.length_map] at hj
    simp; omega
  · intro e he j t' w ht
    rw [elems_eq] at he
    obtain ⟨x, hx, rfl⟩ := List.mem_map.mp he
    exact hel x hx t' (List.mem_of_getElem? ht) w

/-- C40 is false for longer arrays, whatever the size of the `std::array`: an array of more than `n` elements, each
of which imports, runs over the end. -/
theorem C40_array_overrun (env : Env) (cfg : Cfg) (conv : Bool) (n : Nat) (ty : Ty) (old : List Val) (ts : List JTree) (t : Bytes)
    (hdoc : JDoc codePair (.arr ts) t) (hn : old.length = n) (hlen : n < ts.length)
    (hskip : (Tr.arr ts : JTree).skippable (jsem conv) = true)
    (hel : ∀ x ∈ ts, ∀ w, ∃ y, imp (jsem conv) env cfg x ty w = .ok y) :
    jsonImport env cfg conv (.arr n ty) (.list old) t = .ub := by
  rw [jsonImport_doc env cfg hdoc _ _ (.inl fun _ => hskip)]
  show impFix _ _ _ _ = .ub
  refine impFix_over _ _ _ (Nat.zero_le _) ?_ ?_
  · rw [elems_eq, List.length_map]; omega
  · intro e he j t' w ht
    rw [elems_eq] at he
    obtain ⟨x, hx, rfl⟩ := List.mem_map.mp he
    split at ht
    · injection ht with ht; subst ht; exact hel x hx w
    · simp at ht

/-- non-vacuity and witness: `[1,2,3]` into a `std::array<int, 2>`, so the claim is false. -/
theorem C40_false : ¬ C40_claim (.arr 2 Samples.int32) [.int 0, .int 0] := by
  intro h
  refine h Samples.env ⟨.Strict, []⟩ true _ _ (Samples.plain_doc (.arr [Samples.num 1, Samples.num 2, Samples.num 3]) (by decide)) ?_
  refine C40_array_overrun Samples.env ⟨.Strict, []⟩ true 2 _ _ _ _ (Samples.plain_doc _ (by decide)) rfl (by simp) (by decide) ?_
  intro x hx w
  simp only [List.mem_cons, List.not_mem_nil, or_false] at hx
  rcases hx with rfl | rfl | rfl <;> exact ⟨_, rfl⟩

theorem not_ub (r : Res Val) (h : (match r with | .ub => true | _ => false) = false) : r ≠ .ub := by
  rintro rfl; simp at h

/-- non-vacuity of the proved parts: `[1,2]` into a `std::array<int, 2>`, and `[1,true]` into the tuple of the samples. -/
example : jsonImport Samples.env ⟨.Strict, []⟩ true (.arr 2 Samples.int32) (.list [.int 0, .int 0]) b!"[1,2]" ≠ .ub ∧
    jsonImport Samples.env ⟨.Strict, []⟩ true (.named 3) (.list [.int 0, .bool false]) b!"[1,true]" ≠ .ub := by
  constructor
  · refine C40_array_inside_partial Samples.env ⟨.Strict, []⟩ true 2 Samples.int32 _ [Samples.num 1, Samples.num 2] _
      (Samples.plain_doc _ (by decide)) rfl (by simp) (by decide) ?_
    intro x hx w
    simp only [List.mem_cons, List.not_mem_nil, or_false] at hx
    rcases hx with rfl | rfl <;> exact not_ub _ rfl
  · refine C40_tuple_inside_partial Samples.env ⟨.Strict, []⟩ true 3 [Samples.int32, .bool] _ [Samples.num 1, .scalar (.bool true)] _ rfl
      (Samples.plain_doc _ (by decide)) rfl (by simp) (by decide) ?_
    intro x hx ty hty w
    simp only [List.mem_cons, List.not_mem_nil, or_false] at hx hty
    rcases hx with rfl | rfl <;> rcases hty with rfl | rfl <;> exact not_ub _ rfl

end Thors.Props
