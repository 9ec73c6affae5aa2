import Verif.Props.Elements
/-
C138: arrays of fixed size and tuples are read element by element.
-/
namespace Thors.Props
open Thors Thors.Spec StrIn

/-- What importing elements from place `i` on does to each place. -/
theorem impFix_each (tyAt : Nat → Option Ty) : ∀ (es : List Imp) (i : Nat) (old : List Val) (x : Val), impFix tyAt es i old = .ok x →
    ∃ new, x = .list new ∧ new.length = old.length ∧
      (∀ j e, es[j]? = some e → ∃ t w v, tyAt (i + j) = some t ∧ old[i + j]? = some w ∧ e t w = .ok v ∧ new[i + j]? = some v) ∧
      ∀ j, j < i ∨ i + es.length ≤ j → new[j]? = old[j]?
  | [], i, old, x, h => by
    rw [impFix] at h
    cases h
    exact ⟨old, rfl, rfl, by simp, fun _ _ => rfl⟩
  | e :: es, i, old, x, h => by
    rw [impFix] at h
    cases ht : tyAt i with
    | none => rw [ht] at h; cases h
    | some t =>
      cases hw : old[i]? with
      | none => rw [ht, hw] at h; cases h
      | some w =>
        rw [ht, hw] at h
        obtain ⟨v, hv, h⟩ := Res.bind_eq_ok.mp h
        obtain ⟨new, rfl, hl, h1, h2⟩ := impFix_each tyAt es (i + 1) _ x h
        have hi : i < old.length := (List.getElem?_eq_some_iff.1 hw).1
        refine ⟨new, rfl, by rw [hl, List.length_set], ?_, ?_⟩
        · intro j e' he
          cases j with
          | zero =>
            rw [List.getElem?_cons_zero] at he
            cases he
            refine ⟨t, w, v, ht, hw, hv, ?_⟩
            rw [Nat.add_zero, h2 i (.inl (Nat.lt_succ_self i)), List.getElem?_set_self hi]
          | succ j =>
            rw [List.getElem?_cons_succ] at he
            obtain ⟨t', w', v', e1, e2, e3, e4⟩ := h1 j e' he
            rw [List.getElem?_set_ne (by omega)] at e2
            rw [show i + 1 + j = i + (j + 1) by omega] at e1 e2 e4
            exact ⟨t', w', v', e1, e2, e3, e4⟩
        · intro j hj
          rw [List.length_cons] at hj
          rw [h2 j (by omega), List.getElem?_set_ne (by omega)]

/-- If every element has a place and can be imported into what is there, all can. -/
private theorem impFix_all (tyAt : Nat → Option Ty) : ∀ (es : List Imp) (i : Nat) (old : List Val),
    (∀ j e, es[j]? = some e → ∃ t w v, tyAt (i + j) = some t ∧ old[i + j]? = some w ∧ e t w = .ok v) → ∃ x, impFix tyAt es i old = .ok x
  | [], i, old, _ => ⟨_, by rw [impFix]⟩
  | e :: es, i, old, h => by
    obtain ⟨t, w, v, ht, hw, hv⟩ := h 0 e rfl
    rw [Nat.add_zero] at ht hw
    obtain ⟨x, hx⟩ := impFix_all tyAt es (i + 1) (old.set i v) fun j e' he => by
      obtain ⟨t', w', v', e1, e2, e3⟩ := h (j + 1) e' he
      rw [show i + (j + 1) = i + 1 + j by omega] at e1 e2
      exact ⟨t', w', v', e1, by rw [List.getElem?_set_ne (by omega)]; exact e2, e3⟩
    refine ⟨x, ?_⟩
    rw [impFix, ht, hw]
    dsimp only
    rw [hv]
    exact hx

/-- The type of each element of a `std::array` or a tuple. -/
def ElementTypes (env : Env) : Ty → (Nat → Option Ty) → Prop
  | .arr n t, tyAt => ∀ i, tyAt i = if i < n then some t else none
  | .named i, tyAt => ∃ ts, env.defs i = .tuple ts ∧ ∀ i, tyAt i = ts[i]?
  | _, _ => False

theorem impArr_fix {env : Env} {ty : Ty} {tyAt : Nat → Option Ty} (h : ElementTypes env ty tyAt) (es : List Imp) (vs : List Val) :
    impArr env es ty (.list vs) = impFix tyAt es 0 vs := by
  cases ty with
  | arr n t =>
    have : tyAt = fun i => if i < n then some t else none := funext h
    subst this
    rfl
  | named i =>
    obtain ⟨ts, hi, h⟩ := h
    have : tyAt = fun i => ts[i]? := funext h
    subst this
    simp only [impArr, hi]
  | _ => exact h.elim

/-- C138. A JSON array is imported into a `std::array` or a tuple: each element that the array has is what its text, as a document by itself, makes of the old
element; the elements behind the last one stay. -/
theorem C138_import (env : Env) (cfg : Cfg) (conv : Bool) (ty : Ty) (tyAt : Nat → Option Ty) (hty : ElementTypes env ty tyAt) (old : List Val) (x : Val)
    (es : List (JTree × Bytes)) (t : Bytes) (he : ∀ e ∈ es, JDoc codePair e.1 e.2) (hdoc : JDoc codePair (.arr (es.map Prod.fst)) t)
    (hskip : cfg.strict = .Weak → (Tr.arr (es.map Prod.fst) : JTree).skippable (jsem conv) = true)
    (hok : jsonImport env cfg conv ty (.list old) t = .ok x) :
    ∃ new, x = .list new ∧ new.length = old.length ∧
      (∀ j e, es[j]? = some e → ∃ t w v, tyAt j = some t ∧ old[j]? = some w ∧ jsonImport env cfg conv t w e.2 = .ok v ∧ new[j]? = some v) ∧
      ∀ j, es.length ≤ j → new[j]? = old[j]? := by
  rw [jsonImport_doc env cfg hdoc _ _ (.inl hskip)] at hok
  simp only [imp] at hok
  rw [impArr_fix hty, elems_eq, List.map_map] at hok
  obtain ⟨new, rfl, hl, h1, h2⟩ := impFix_each tyAt _ 0 old x hok
  refine ⟨new, rfl, hl, ?_, fun j hj => h2 j (.inr (by simpa using hj))⟩
  intro j e hj
  obtain ⟨t', w, v, e1, e2, e3, e4⟩ := h1 j _ (by rw [List.getElem?_map, hj]; rfl)
  rw [Nat.zero_add] at e1 e2 e4
  have e3 : imp (jsem conv) env cfg e.1 t' w = .ok v := e3
  refine ⟨t', w, v, e1, e2, ?_, e4⟩
  rw [jsonImport_doc env cfg (he e (List.mem_of_getElem? hj)) _ _ (.inr (by rw [e3]; simp))]
  exact e3

/-- C138, the other direction: if each element has a place and can be imported into it by itself, the array can. -/
theorem C138_succeeds (env : Env) (cfg : Cfg) (conv : Bool) (ty : Ty) (tyAt : Nat → Option Ty) (hty : ElementTypes env ty tyAt) (old : List Val)
    (es : List (JTree × Bytes)) (t : Bytes) (he : ∀ e ∈ es, JDoc codePair e.1 e.2) (hdoc : JDoc codePair (.arr (es.map Prod.fst)) t)
    (hskip : cfg.strict = .Weak → ∀ e ∈ es, e.1.skippable (jsem conv) = true)
    (hall : ∀ j e, es[j]? = some e → ∃ t w v, tyAt j = some t ∧ old[j]? = some w ∧ jsonImport env cfg conv t w e.2 = .ok v) :
    ∃ x, jsonImport env cfg conv ty (.list old) t = .ok x := by
  have key : ∃ x, imp (jsem conv) env cfg (.arr (es.map Prod.fst)) ty (.list old) = .ok x := by
    simp only [imp]
    rw [impArr_fix hty, elems_eq, List.map_map]
    refine impFix_all tyAt _ 0 old fun j f hf => ?_
    rw [List.getElem?_map] at hf
    cases hj : es[j]? with
    | none => rw [hj] at hf; cases hf
    | some e =>
      rw [hj] at hf
      cases hf
      obtain ⟨t', w, v, e1, e2, e3⟩ := hall j e hj
      have hm := List.mem_of_getElem? hj
      rw [jsonImport_doc env cfg (he e hm) _ _ (.inl fun h => hskip h e hm)] at e3
      rw [Nat.zero_add]
      exact ⟨t', w, v, e1, e2, e3⟩
  obtain ⟨x, h⟩ := key
  exact ⟨x, by rw [jsonImport_doc env cfg hdoc _ _ (.inr (by rw [h]; simp))]; exact h⟩

/-- C138, reading YAML. -/
theorem C138_import_yaml (env : Env) (cfg : Cfg) (ty : Ty) (tyAt : Nat → Option Ty) (hty : ElementTypes env ty tyAt) (old : List Val) (x : Val) (es : List YTree) (rest : List YEv)
    (hok : yamlImport env cfg ty (.list old) ([.streamStart, .docStart] ++ yevents (.arr es) ++ .docEnd :: rest) = .ok x) :
    ∃ new, x = .list new ∧ new.length = old.length ∧
      (∀ j e, es[j]? = some e → ∃ t w v, tyAt j = some t ∧ old[j]? = some w ∧
        yamlImport env cfg t w ([.streamStart, .docStart] ++ yevents e ++ .docEnd :: rest) = .ok v ∧ new[j]? = some v) ∧
      ∀ j, es.length ≤ j → new[j]? = old[j]? := by
  rw [yamlImport_doc] at hok
  simp only [imp] at hok
  rw [impArr_fix hty, elems_eq] at hok
  obtain ⟨new, rfl, hl, h1, h2⟩ := impFix_each tyAt _ 0 old x hok
  refine ⟨new, rfl, hl, ?_, fun j hj => h2 j (.inr (by simpa using hj))⟩
  intro j e hj
  obtain ⟨t', w, v, e1, e2, e3, e4⟩ := h1 j _ (by rw [List.getElem?_map, hj]; rfl)
  rw [Nat.zero_add] at e1 e2 e4
  exact ⟨t', w, v, e1, e2, by rw [yamlImport_doc]; exact e3, e4⟩

/-- non-vacuity: `[7]` into the tuple `(0, true)`, and into an array of two. -/
example : ∃ x, jsonImport Samples.env ⟨.Strict, []⟩ true (.named 3) (.list [.int 0, .bool true]) (Samples.text (.arr [Samples.num 7])) = .ok x := by
  refine C138_succeeds Samples.env ⟨.Strict, []⟩ true (.named 3) _ ⟨[Samples.int32, .bool], rfl, fun _ => rfl⟩ [.int 0, .bool true] [(Samples.num 7, Samples.text (Samples.num 7))] _ ?_
    (Samples.plain_doc _ (by decide)) (fun h => by cases h) ?_
  · intro e he
    cases List.mem_singleton.1 he
    exact Samples.plain_doc _ (by decide)
  · intro j e hj
    match j, hj with
    | 0, rfl => exact ⟨_, _, .int 7, rfl, rfl, by rw [jsonImport_doc _ _ (Samples.plain_doc _ (by decide)) _ _ (.inl fun h => by cases h)]; rfl⟩
example (x : Val) (h : jsonImport Samples.env ⟨.Strict, []⟩ true (.named 3) (.list [.int 0, .bool true]) (Samples.text (.arr [Samples.num 7])) = .ok x) :
    ∃ new, x = .list new ∧ new[1]? = some (.bool true) := by
  obtain ⟨new, e, -, -, h2⟩ := C138_import Samples.env ⟨.Strict, []⟩ true (.named 3) _ ⟨[Samples.int32, .bool], rfl, fun _ => rfl⟩ [.int 0, .bool true] x
    [(Samples.num 7, Samples.text (Samples.num 7))] _ (by
      intro e he
      cases List.mem_singleton.1 he
      exact Samples.plain_doc _ (by decide)) (Samples.plain_doc _ (by decide)) (fun h => by cases h) h
  exact ⟨new, e, h2 1 (Nat.le_refl 1)⟩
example (env : Env) : yamlImport env ⟨.Strict, []⟩ (.arr 2 .bool) (.list [.bool false, .bool false]) ([.streamStart, .docStart] ++ yevents (.arr [.scalar b!"true"]) ++ .docEnd :: [.streamEnd]) =
    .ok (.list [.bool true, .bool false]) := by
  rw [yamlImport_doc]
  rfl
example (env : Env) : ElementTypes env (.arr 2 .bool) fun i => if i < 2 then some .bool else none := fun _ => rfl

end Thors.Props
