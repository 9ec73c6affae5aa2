import Verif.Spec.SharedSafe
import Verif.Proofs.Typed
import Verif.Proofs.TypedOps
/-
Imported shared pointers point to objects of their type, and no object is lost (C111, C114): an invariant of the reader of
`Model/Shared.lean`, for every parser and every input.
-/
namespace Thors
open Thors.Spec StrIn Lean.Order

variable {σ : Type} {o : POps σ} {S : SEnv}

mutual
theorem Spec.SHas.mono {R R' : Nat → STy → Prop} (h : ∀ a u, R a u → R' a u) : ∀ {t : STy} {v : SVal}, SHas S R t v → SHas S R' t v
  | .plain _, .plain _, hv => by simpa only [SHas] using hv
  | .vec _, .list vs, hv => by simp only [SHas] at hv ⊢; exact SHas.monoAll h hv
  | .cls _, .obj fs, hv => by simp only [SHas] at hv ⊢; exact SHas.monoMembers h hv
  | .shared _, .handle _ none, hv => by simp only [SHas]
  | .shared t, .handle _ (some a), hv => by simp only [SHas] at hv ⊢; exact h a t hv
  | .plain _, .obj _, hv | .plain _, .list _, hv | .plain _, .handle _ _, hv | .plain _, .unset, hv => by simp only [SHas] at hv
  | .vec _, .obj _, hv | .vec _, .plain _, hv | .vec _, .handle _ _, hv | .vec _, .unset, hv => by simp only [SHas] at hv
  | .cls _, .list _, hv | .cls _, .plain _, hv | .cls _, .handle _ _, hv | .cls _, .unset, hv => by simp only [SHas] at hv
  | .shared _, .list _, hv | .shared _, .plain _, hv | .shared _, .obj _, hv | .shared _, .unset, hv => by simp only [SHas] at hv
theorem Spec.SHas.monoAll {R R' : Nat → STy → Prop} (h : ∀ a u, R a u → R' a u) : ∀ {t : STy} {vs : List SVal}, SHas.all S R t vs → SHas.all S R' t vs
  | _, [], _ => by simp only [SHas.all]
  | _, v :: vs, hv => by simp only [SHas.all] at hv ⊢; exact ⟨SHas.mono h hv.1, SHas.monoAll h hv.2⟩
theorem Spec.SHas.monoMembers {R R' : Nat → STy → Prop} (h : ∀ a u, R a u → R' a u) :
    ∀ {ms : List (Bytes × STy)} {vs : List SVal}, SHas.members S R ms vs → SHas.members S R' ms vs
  | [], [], _ => by simp only [SHas.members]
  | (_, _) :: ms, .unset :: vs, hv => by simp only [SHas.members] at hv ⊢; exact SHas.monoMembers h hv
  | (_, _) :: ms, .plain _ :: vs, hv | (_, _) :: ms, .obj _ :: vs, hv | (_, _) :: ms, .list _ :: vs, hv | (_, _) :: ms, .handle _ _ :: vs, hv => by
    simp only [SHas.members] at hv ⊢; exact ⟨SHas.mono h hv.1, SHas.monoMembers h hv.2⟩
  | [], _ :: _, hv => by simp only [SHas.members] at hv
  | _ :: _, [], hv => by simp only [SHas.members] at hv
end

mutual
/-- Where the pointers in a value of a type point to, there is something. -/
theorem Spec.SHas.inside {R : Nat → STy → Prop} : ∀ {t : STy} {v : SVal}, SHas S R t v → ∀ a ∈ targets v, ∃ u, R a u
  | .plain _, .plain _, _ => by simp [targets]
  | .vec _, .list vs, hv => by simp only [SHas, targets] at hv ⊢; exact SHas.insideAll hv
  | .cls _, .obj fs, hv => by simp only [SHas, targets] at hv ⊢; exact SHas.insideMembers hv
  | .shared _, .handle _ none, _ => by simp [targets]
  | .shared t, .handle _ (some a), hv => by
    simp only [SHas, targets, List.mem_singleton] at hv ⊢
    rintro _ rfl
    exact ⟨t, hv⟩
  | .plain _, .obj _, hv | .plain _, .list _, hv | .plain _, .handle _ _, hv | .plain _, .unset, hv => by simp only [SHas] at hv
  | .vec _, .obj _, hv | .vec _, .plain _, hv | .vec _, .handle _ _, hv | .vec _, .unset, hv => by simp only [SHas] at hv
  | .cls _, .list _, hv | .cls _, .plain _, hv | .cls _, .handle _ _, hv | .cls _, .unset, hv => by simp only [SHas] at hv
  | .shared _, .list _, hv | .shared _, .plain _, hv | .shared _, .obj _, hv | .shared _, .unset, hv => by simp only [SHas] at hv
theorem Spec.SHas.insideAll {R : Nat → STy → Prop} : ∀ {t : STy} {vs : List SVal}, SHas.all S R t vs → ∀ a ∈ targets.all vs, ∃ u, R a u
  | _, [], _ => by simp [targets.all]
  | _, v :: vs, hv => by
    simp only [SHas.all, targets.all, List.mem_append] at hv ⊢
    exact fun a ha => ha.elim (SHas.inside hv.1 a) (SHas.insideAll hv.2 a)
theorem Spec.SHas.insideMembers {R : Nat → STy → Prop} : ∀ {ms : List (Bytes × STy)} {vs : List SVal}, SHas.members S R ms vs → ∀ a ∈ targets.all vs, ∃ u, R a u
  | [], [], _ => by simp [targets.all]
  | (_, _) :: ms, .unset :: vs, hv => by
    simp only [SHas.members, targets.all, targets, List.nil_append] at hv ⊢; exact SHas.insideMembers hv
  | (_, _) :: ms, .plain _ :: vs, hv | (_, _) :: ms, .obj _ :: vs, hv | (_, _) :: ms, .list _ :: vs, hv | (_, _) :: ms, .handle _ _ :: vs, hv => by
    simp only [SHas.members] at hv
    simp only [targets.all, List.mem_append]
    exact fun a ha => ha.elim (SHas.inside hv.1 a) (SHas.insideMembers hv.2 a)
  | [], _ :: _, hv => by simp only [SHas.members] at hv
  | _ :: _, [], hv => by simp only [SHas.members] at hv
end

theorem Spec.SHas.ne_unset {R : Nat → STy → Prop} {t : STy} {v : SVal} (h : SHas S R t v) : v ≠ .unset := by
  rintro rfl
  cases t <;> simp only [SHas] at h

theorem members_unset {R : Nat → STy → Prop} : ∀ ms : List (Bytes × STy), SHas.members S R ms (ms.map fun _ => .unset)
  | [] => by simp only [List.map_nil, SHas.members]
  | (_, _) :: ms => by simp only [List.map_cons, SHas.members]; exact members_unset ms

theorem members_cons {R : Nat → STy → Prop} {n : Bytes} {t : STy} {ms : List (Bytes × STy)} {v : SVal} {fs : List SVal} (hv : SHas S R t v) (hf : SHas.members S R ms fs) :
    SHas.members S R ((n, t) :: ms) (v :: fs) := by
  cases v <;> simp only [SHas.members] <;> first | exact ⟨hv, hf⟩ | exact hf

/-- Storing a member keeps the type of the object. -/
theorem members_set {R : Nat → STy → Prop} {key : Bytes} {v : SVal} {t : STy} :
    ∀ (ms : List (Bytes × STy)) (fs : List SVal) (j i : Nat), smemberAt key ms j = some (i, t) → SHas S R t v → SHas.members S R ms fs →
      ∃ k, i = j + k ∧ SHas.members S R ms (fs.set k v)
  | [], _, _, _, h, _, _ => by simp [smemberAt] at h
  | (n, u) :: ms, [], _, _, _, _, hf => by simp only [SHas.members] at hf
  | (n, u) :: ms, w :: fs, j, i, h, hv, hf => by
    have htail : SHas.members S R ms fs := by
      cases w <;> simp only [SHas.members] at hf <;> first | exact hf.2 | exact hf
    rw [smemberAt] at h
    split at h
    · cases h
      exact ⟨0, rfl, members_cons hv htail⟩
    · obtain ⟨k, hk, hm⟩ := members_set ms fs (j + 1) i h hv htail
      refine ⟨k + 1, by omega, ?_⟩
      rw [List.set_cons_succ]
      cases w <;> simp only [SHas.members] at hf ⊢ <;> first | exact ⟨hf.1, hm⟩ | exact hm

theorem all_snoc {R : Nat → STy → Prop} {t : STy} {v : SVal} (hv : SHas S R t v) : ∀ {vs : List SVal}, SHas.all S R t vs → SHas.all S R t (vs ++ [v])
  | [], _ => by simp only [List.nil_append, SHas.all]; exact ⟨hv, trivial⟩
  | w :: vs, h => by simp only [List.cons_append, SHas.all] at h ⊢; exact ⟨h.1, all_snoc hv h.2⟩

theorem assoc_mem {α β : Type} [BEq α] [LawfulBEq α] {n : α} {c : β} : ∀ {l : List (α × β)}, l.lookup n = some c → (n, c) ∈ l
  | [], h => by simp at h
  | (k, v) :: l, h => by
    rw [List.lookup_cons] at h
    split at h
    · rename_i e
      cases h
      rw [eq_of_beq e]
      exact List.mem_cons_self
    · exact List.mem_cons_of_mem _ (assoc_mem h)

theorem typAdm5 {A B C D E F : Type} (P : A → B → C → D → E → F → Prop) :
    admissible (fun f : A → B → C → D → E → Res F => ∀ a b c d e, Yields (P a b c d e) (f a b c d e)) :=
  admissible_pi _ fun a => admissible_pi _ fun b => admissible_pi _ fun c => admissible_pi _ fun d => admissible_pi _ fun e =>
    admissible_apply (fun (_ : A) (f : B → C → D → E → Res F) => Yields (P a b c d e) (f b c d e)) a
      (admissible_apply (fun (_ : B) (f : C → D → E → Res F) => Yields (P a b c d e) (f c d e)) b
        (admissible_apply (fun (_ : C) (f : D → E → Res F) => Yields (P a b c d e) (f d e)) c
          (admissible_apply (fun (_ : D) (f : E → Res F) => Yields (P a b c d e) (f e)) d
            (admissible_apply (fun (_ : E) (r : Res F) => Yields (P a b c d e) r) e (Yields.admissible _)))))

theorem typAdm6 {A B C D E G F : Type} (P : A → B → C → D → E → G → F → Prop) :
    admissible (fun f : A → B → C → D → E → G → Res F => ∀ a b c d e g, Yields (P a b c d e g) (f a b c d e g)) :=
  admissible_pi _ fun a =>
    admissible_apply (fun (_ : A) (f : B → C → D → E → G → Res F) => ∀ b c d e g, Yields (P a b c d e g) (f b c d e g)) a (typAdm5 _)

/-- The object was handed to a shared pointer of that type. -/
def Pub (st : Loaded) (a : Nat) (t : STy) : Prop := ∃ n, (n, t, some a) ∈ st.saved

/-- The invariant: what was handed out has one type, is still there, is a value of its type, and points only to older objects that were
handed out. -/
structure Typing (S : SEnv) (st : Loaded) : Prop where
  one : ∀ a t u, Pub st a t → Pub st a u → t = u
  each : ∀ a t, Pub st a t → ∃ v, st.heap[a]? = some v ∧ SHas S (fun b u => b < a ∧ Pub st b u) t v

/-- From `base` to `st`, while the object `d` is being read: what was handed out stays so; the objects of `base` are untouched; of the
new ones those that were not deleted were handed out, but for `d`. -/
structure Since (S : SEnv) (t : STy) (base st : Loaded) (d : Option (Option Nat)) : Prop where
  kept : ∀ a u, Pub base a u → Pub st a u
  len : base.heap.length ≤ st.heap.length
  old : ∀ a, a < base.heap.length → st.heap[a]? = base.heap[a]? ∧ ∀ u, Pub st a u → Pub base a u
  new : ∀ a v, base.heap.length ≤ a → st.heap[a]? = some v → (v ≠ .unset ↔ (∃ u, Pub st a u) ∨ d = some (some a))
  own : ∀ a, d = some (some a) → base.heap.length ≤ a ∧ (∀ u, ¬ Pub st a u) ∧ ∃ v, st.heap[a]? = some v ∧ SHas S (fun b u => b < a ∧ Pub st b u) t v

theorem Since.refl (t : STy) (st : Loaded) : Since S t st st none where
  kept _ _ h := h
  len := Nat.le_refl _
  old _ _ := ⟨rfl, fun _ h => h⟩
  new a v h1 h2 := by
    have := (List.getElem?_eq_some_iff.mp h2).1
    omega
  own _ h := by cases h

theorem Since.trans {t u : STy} {base st st' : Loaded} (h1 : Since S t base st none) (h2 : Since S u st st' none) : Since S t base st' none where
  kept a w h := h2.kept a w (h1.kept a w h)
  len := Nat.le_trans h1.len h2.len
  old a h := by
    have h3 := h1.old a h
    have h4 := h2.old a (Nat.lt_of_lt_of_le h h1.len)
    exact ⟨h4.1.trans h3.1, fun w hw => h3.2 w (h4.2 w hw)⟩
  new a v h h3 := by
    rcases Nat.lt_or_ge a st.heap.length with hl | hl
    · have h4 := h2.old a hl
      rw [h1.new a v h (by rw [← h4.1]; exact h3)]
      constructor
      · rintro (⟨w, hw⟩ | hw)
        · exact .inl ⟨w, h2.kept a w hw⟩
        · cases hw
      · rintro (⟨w, hw⟩ | hw)
        · exact .inl ⟨w, h4.2 w hw⟩
        · cases hw
    · rw [h2.new a v hl h3]
  own _ h := by cases h

theorem Since.retype {t u : STy} {base st : Loaded} (h : Since S t base st none) : Since S u base st none := ⟨h.kept, h.len, h.old, h.new, fun _ e => by cases e⟩

/-- Deleting the object that is being read. -/
theorem released {t : STy} {base st : Loaded} {d : Option (Option Nat)} (hT : Typing S st) (h : Since S t base st d) :
    Typing S (release d st) ∧ Since S t base (release d st) none := by
  match d with
  | none | some none => exact ⟨hT, h.kept, h.len, h.old, fun a v h1 h2 => by rw [h.new a v h1 h2]; simp [release], fun _ e => by cases e⟩
  | some (some b) =>
    obtain ⟨h1, h2, v, h3, h4⟩ := h.own b rfl
    have hp : ∀ a u, Pub (release (some (some b)) st) a u ↔ Pub st a u := fun _ _ => Iff.rfl
    have hh : ∀ a, a ≠ b → (release (some (some b)) st).heap[a]? = st.heap[a]? := by
      intro a ha
      show (st.heap.set b .unset)[a]? = _
      rw [List.getElem?_set_ne (Ne.symm ha)]
    have hb := (List.getElem?_eq_some_iff.mp h3).1
    refine ⟨⟨hT.one, fun a u hu => ?_⟩, h.kept, ?_, fun a ha => ?_, fun a w ha hw => ?_, fun _ e => by cases e⟩
    · have hne : a ≠ b := fun e => h2 u (e ▸ hu)
      obtain ⟨w, h5, h6⟩ := hT.each a u hu
      exact ⟨w, by rw [hh a hne]; exact h5, h6⟩
    · show _ ≤ (st.heap.set b .unset).length
      rw [List.length_set]
      exact h.len
    · exact ⟨by rw [hh a (by omega)]; exact (h.old a ha).1, (h.old a ha).2⟩
    · by_cases e : a = b
      · subst e
        have : (release (some (some a)) st).heap[a]? = some .unset := by
          show (st.heap.set a .unset)[a]? = _
          rw [List.getElem?_set_self hb]
        rw [this] at hw
        cases hw
        simp only [ne_eq, not_true_eq_false, false_iff, reduceCtorEq, or_false, not_exists]
        exact h2
      · rw [hh a e] at hw
        rw [h.new a w ha hw]
        constructor
        · rintro (h | h)
          · exact .inl h
          · cases h; exact absurd rfl e
        · rintro (h | h)
          · exact .inl h
          · cases h

/-- A new object. -/
theorem allocated {t : STy} {base st : Loaded} {v : SVal} (hT : Typing S st) (h : Since S t base st none) (hv : SHas S (Pub st) t v) :
    Typing S ⟨st.saved, st.heap ++ [v]⟩ ∧ Since S t base ⟨st.saved, st.heap ++ [v]⟩ (some (some st.heap.length)) := by
  have hlt : ∀ a u, Pub st a u → a < st.heap.length := fun a u hu => by
    obtain ⟨w, hw, -⟩ := hT.each a u hu
    exact (List.getElem?_eq_some_iff.mp hw).1
  have hh : ∀ a, a < st.heap.length → (st.heap ++ [v])[a]? = st.heap[a]? := fun a ha => List.getElem?_append_left ha
  have hl : (st.heap ++ [v])[st.heap.length]? = some v := by simp
  refine ⟨⟨hT.one, fun a u hu => ?_⟩, h.kept, ?_, fun a ha => ?_, fun a w ha hw => ?_, ?_⟩
  · obtain ⟨w, h1, h2⟩ := hT.each a u hu
    exact ⟨w, (hh a (hlt a u hu)).trans h1, h2⟩
  · simp only [List.length_append]
    exact Nat.le_trans h.len (Nat.le_add_right _ _)
  · exact ⟨(hh a (Nat.lt_of_lt_of_le ha h.len)).trans (h.old a ha).1, (h.old a ha).2⟩
  · have hx := (List.getElem?_eq_some_iff.mp hw).1
    simp only [List.length_append, List.length_singleton] at hx
    rcases Nat.lt_or_ge a st.heap.length with hc | hc
    · rw [show (st.heap ++ [v])[a]? = _ from hh a hc] at hw
      rw [h.new a w ha hw]
      constructor
      · rintro (h | h)
        · exact .inl h
        · cases h
      · rintro (h | h)
        · exact .inl h
        · cases h; omega
    · have e : a = st.heap.length := by omega
      subst e
      rw [show (st.heap ++ [v])[st.heap.length]? = _ from hl] at hw
      cases hw
      exact iff_of_true hv.ne_unset (.inr rfl)
  · intro a e
    cases e
    refine ⟨h.len, fun u hu => ?_, v, hl, hv.mono fun b u hb => ⟨hlt b u hb, hb⟩⟩
    have := hlt _ u hu
    omega

/-- What reading a value of the type yields. -/
def Delivers (S : SEnv) (t : STy) (st : Loaded) (x : SVal × Loaded) : Prop :=
  Typing S st → Typing S x.2 ∧ Since S t st x.2 none ∧ SHas S (Pub x.2) t x.1

theorem getShared_yields (t : STy) (name : Option Int) (data : Option (Option Nat)) (st : Loaded) :
    Yields (fun x => ∀ base, Typing S st → Since S t base st data → Typing S x.2 ∧ Since S (.shared t) base x.2 none ∧ SHas S (Pub x.2) (.shared t) x.1) (getShared t name data st) := by
  unfold getShared
  cases name with
  | none => exact .ub
  | some i =>
    dsimp only
    cases data with
    | some target =>
      refine .ok fun base hT h => ?_
      have hp : ∀ a u, Pub ⟨(i, t, target) :: st.saved, st.heap⟩ a u ↔ Pub st a u ∨ (u = t ∧ target = some a) := by
        intro a u
        constructor
        · rintro ⟨n, hn⟩
          rcases List.mem_cons.mp hn with e | hn
          · cases e; exact .inr ⟨rfl, rfl⟩
          · exact .inl ⟨n, hn⟩
        · rintro (⟨n, hn⟩ | ⟨rfl, rfl⟩)
          · exact ⟨n, List.mem_cons_of_mem _ hn⟩
          · exact ⟨i, List.mem_cons_self⟩
      have hmono : ∀ a b u, b < a ∧ Pub st b u → b < a ∧ Pub ⟨(i, t, target) :: st.saved, st.heap⟩ b u := fun a b u hb => ⟨hb.1, (hp b u).mpr (.inl hb.2)⟩
      have hown : ∀ a, target = some a → _ := fun a e => h.own a (by rw [e])
      refine ⟨⟨fun a u w hu hw => ?_, fun a u hu => ?_⟩, ⟨fun a u hu => (hp a u).mpr (.inl (h.kept a u hu)), h.len, fun a ha => ⟨(h.old a ha).1, fun u hu => ?_⟩,
        fun a v ha hv => ?_, fun _ e => by cases e⟩, ?_⟩
      · rcases (hp a u).mp hu with h1 | ⟨rfl, h1⟩ <;> rcases (hp a w).mp hw with h2 | ⟨rfl, h2⟩
        · exact hT.one a u w h1 h2
        · exact absurd h1 ((hown a h2).2.1 u)
        · exact absurd h2 ((hown a h1).2.1 w)
        · rfl
      · rcases (hp a u).mp hu with h1 | ⟨rfl, h1⟩
        · obtain ⟨v, h2, h3⟩ := hT.each a u h1
          exact ⟨v, h2, h3.mono (hmono a)⟩
        · obtain ⟨-, -, v, h2, h3⟩ := hown a h1
          exact ⟨v, h2, h3.mono (hmono a)⟩
      · rcases (hp a u).mp hu with h1 | ⟨rfl, h1⟩
        · exact (h.old a ha).2 u h1
        · have := (hown a h1).1
          omega
      · rw [h.new a v ha hv]
        constructor
        · rintro (⟨u, hu⟩ | e)
          · exact .inl ⟨u, (hp a u).mpr (.inl hu)⟩
          · cases e; exact .inl ⟨t, (hp a t).mpr (.inr ⟨rfl, rfl⟩)⟩
        · rintro (⟨u, hu⟩ | e)
          · rcases (hp a u).mp hu with h1 | ⟨-, h1⟩
            · exact .inl ⟨u, h1⟩
            · exact .inr (by rw [h1])
          · cases e
      · cases target with
        | none => simp only [SHas]
        | some a => simp only [SHas]; exact (hp a t).mpr (.inr ⟨rfl, rfl⟩)
    | none =>
      dsimp only
      split
      · rename_i u target hl
        split
        · rename_i e
          subst e
          refine .ok fun base hT h => ⟨hT, h.retype, ?_⟩
          cases target with
          | none => simp only [SHas]
          | some a => simp only [SHas]; exact ⟨i, assoc_mem hl⟩
        · exact .throwStd
      · exact .throwStd

set_option maxHeartbeats 1000000 in
theorem sdeser_typed (R : Ranged o) (D : DefaultsTyped S.env) (cfg : Cfg) :
    ∀ t st p, True → Yields (fun x => Delivers S t st x.1) (sdeser o S cfg t st p) := by
  refine (sdeser.mutual_fixpoint_induct o S cfg
    (fun f => ∀ t st p, True → Yields (fun x => Delivers S t st x.1) (f t st p))
    (fun f => ∀ t found name data st p, Yields (fun x => ∀ base, Typing S st → Since S t base st data →
      Typing S x.1.2.2 ∧ Since S t base x.1.2.2 x.1.2.1) (f t found name data st p))
    (fun f => ∀ ms found fs st p, Yields (fun x => ∀ t, Typing S st → SHas.members S (Pub st) ms fs →
      Typing S x.1.2 ∧ Since S t st x.1.2 none ∧ ∃ gs, x.1.1 = .obj gs ∧ SHas.members S (Pub x.1.2) ms gs) (f ms found fs st p))
    (fun f => ∀ t vs st p, True → Yields (fun x => Typing S st → SHas.all S (Pub st) t vs →
      Typing S x.1.2 ∧ Since S t st x.1.2 none ∧ SHas S (Pub x.1.2) (.vec t) x.1.1) (f t vs st p))
    ?_ ?_ ?_ ?_ ?_ ?_ ?_ ?_).1
  · exact typAdm3 (fun t st _ (x : (SVal × Loaded) × PI σ) => Delivers S t st x.1) (fun _ _ _ => True)
  · exact typAdm6 _
  · exact typAdm5 _
  · exact typAdm4 (fun t vs st _ (x : (SVal × Loaded) × PI σ) => Typing S st → SHas.all S (Pub st) t vs →
      Typing S x.1.2 ∧ Since S t st x.1.2 none ∧ SHas S (Pub x.1.2) (.vec t) x.1.1) (fun _ _ _ _ => True)
  · intro fi fm fv hi hm hv t st p _
    cases t with
    | plain t =>
      refine (deser_typed R D cfg t _ p (default_typed D t)).bind fun x hx => .ok fun h => ⟨h, .refl _ _, ?_⟩
      simp only [SHas]; exact hx
    | vec t =>
      refine (yields_any _).bind fun x _ => ?_
      dsimp only
      split
      · exact .throwStd
      · refine (hv _ _ _ _ trivial).mono fun x hx h => ?_
        obtain ⟨h1, h2, h3⟩ := hx h (by simp only [SHas.all])
        exact ⟨h1, h2.retype, h3⟩
    | cls c =>
      refine (yields_any _).bind fun x _ => ?_
      dsimp only
      split
      · exact .throwStd
      · refine (hm _ _ _ _ _).mono fun x hx h => ?_
        obtain ⟨h1, h2, gs, e, h3⟩ := hx (.cls c) h (members_unset _)
        exact ⟨h1, h2, by rw [e]; simp only [SHas]; exact h3⟩
    | shared t =>
      refine (yields_any _).bind fun x _ => ?_
      dsimp only
      split
      · exact (yields_any _).bind fun s _ => .ok fun h => ⟨h, .refl _ _, by simp only [SHas]⟩
      · refine (yields_any _).bind fun y _ => ?_
        split
        · exact .throwStd
        · refine (hi _ _ _ _ _ _).bind fun z hz => ?_
          obtain ⟨⟨name, data, st'⟩, q⟩ := z
          refine (getShared_yields (S := S) t name data st').bind fun r hr => .ok fun h => ?_
          obtain ⟨h1, h2⟩ := hz st h (.refl _ _)
          exact hr st h1 h2
  · intro fd fi hd hi t found name data st p
    refine (yields_any _).bind fun x _ => ?_
    dsimp only
    split
    · split
      · exact .throwStd
      · exact .ok fun base h ha => ⟨h, ha⟩
    · refine (yields_any _).bind fun y _ => ?_
      split
      · refine (yields_any _).bind fun z _ => ?_
        split
        · exact .throwStd
        · exact (yields_any _).bind fun w _ => hi _ _ _ _ _ _
      · split
        · refine (yields_any _).bind fun z _ => ?_
          split
          · refine (yields_any _).bind fun s _ => (hi _ _ _ _ _ _).mono fun w hw base h ha => ?_
            obtain ⟨h1, h2⟩ := released h ha
            exact hw base h1 ⟨h2.kept, h2.len, h2.old, fun a v q1 q2 => by rw [h2.new a v q1 q2]; simp, fun _ e => by cases e⟩
          · refine (hd _ _ _ trivial).bind fun z hz => (hi _ _ _ _ _ _).mono fun w hw base h ha => ?_
            obtain ⟨h1, h2⟩ := released h ha
            obtain ⟨h3, h4, h5⟩ := hz h1
            obtain ⟨h6, h7⟩ := allocated h3 (h2.trans h4) h5
            exact hw base h6 h7
        · exact (yields_any _).bind fun z _ => hi _ _ _ _ _ _
  · intro fd fm hd hm ms found fs st p
    refine (yields_any _).bind fun x _ => ?_
    dsimp only
    split
    · split
      · exact .throwStd
      · exact .ok fun t h ha => ⟨h, .refl _ _, _, rfl, ha⟩
    · refine (yields_any _).bind fun y _ => ?_
      split
      · exact (yields_any _).bind fun z _ => hm _ _ _ _ _
      · rename_i i t e
        refine (hd _ _ _ trivial).bind fun z hz => (hm _ _ _ _ _).mono fun w hw t' h ha => ?_
        obtain ⟨h1, h2, h3⟩ := hz h
        obtain ⟨k, hk, hs⟩ := members_set ms fs 0 i e h3 (SHas.monoMembers h2.kept ha)
        rw [Nat.zero_add] at hk
        subst hk
        obtain ⟨h4, h5, h6⟩ := hw t' h1 hs
        exact ⟨h4, h2.retype.trans h5, h6⟩
  · intro fd fv hd hv t vs st p _
    refine (yields_any _).bind fun x _ => ?_
    dsimp only
    split
    · exact .ok fun h ha => ⟨h, .refl _ _, by simp only [SHas]; exact ha⟩
    · refine (hd _ _ _ trivial).bind fun y hy => (hv _ _ _ _ trivial).mono fun z hz h ha => ?_
      obtain ⟨h1, h2, h3⟩ := hy h
      obtain ⟨h4, h5, h6⟩ := hz h1 (all_snoc h3 (SHas.monoAll h2.kept ha))
      exact ⟨h4, h2.trans h5, h6⟩

theorem typing_start : Typing S ⟨[], []⟩ := ⟨fun _ _ _ ⟨_, h⟩ => by simp at h, fun _ _ ⟨_, h⟩ => by simp at h⟩

/-- The type of the object at an address. -/
noncomputable def typeAt (st : Loaded) (a : Nat) : Option STy := open Classical in if h : ∃ t, Pub st a t then some h.choose else none

theorem typeAt_iff {st : Loaded} (h : Typing S st) (a : Nat) (t : STy) : typeAt st a = some t ↔ Pub st a t := by
  unfold typeAt
  split
  · next hp =>
    constructor
    · intro e; cases e; exact hp.choose_spec
    · intro ht; rw [h.one a _ _ hp.choose_spec ht]
  · next hp =>
    constructor
    · intro e; cases e
    · intro ht; exact absurd ⟨t, ht⟩ hp

/-- An import leaves well built objects, all with owners. -/
theorem simport_safe (R : Ranged o) (D : DefaultsTyped S.env) (cfg : Cfg) (t : STy) (p : PI σ) :
    Yields (fun x => WellBuilt S t x.1.1 x.1.2.heap ∧ AllOwned x.1.2) (simportValue o S cfg t p) := by
  unfold simportValue
  refine (yields_any _).bind fun x _ => ?_
  dsimp only
  split
  · exact .throwStd
  refine (sdeser_typed R D cfg t _ _ trivial).bind fun y hy => (yields_any _).bind fun x _ => ?_
  split
  · exact .throwStd
  · refine .ok ?_
    obtain ⟨⟨root, st⟩, q⟩ := y
    obtain ⟨hT, h2, hs⟩ := hy typing_start
    dsimp only at hT h2 hs ⊢
    have mono : ∀ b u, Pub st b u → typeAt st b = some u := fun b u h => (typeAt_iff hT b u).mpr h
    have at_ : ∀ a u, Pub st a u → SHas S (fun b u => b < a ∧ Pub st b u) u (memory st.heap a) := by
      intro a u hu
      obtain ⟨v, h3, h4⟩ := hT.each a u hu
      rw [memory, List.getD_eq_getElem?_getD, h3]
      exact h4
    refine ⟨⟨⟨typeAt st, fun a u ha => ?_, hs.mono mono⟩, id, ?_⟩, fun a v ha => ?_⟩
    · exact (at_ a u ((typeAt_iff hT a u).mp ha)).mono fun b w hb => mono b w hb.2
    · have reached : ∀ a, Reach (memory st.heap) root a → ∃ u, Pub st a u := by
        intro a hr
        induction hr with
        | direct h => exact hs.inside _ h
        | step _ hb ih =>
          obtain ⟨u, hu⟩ := ih
          obtain ⟨w, hw⟩ := (at_ _ u hu).inside _ hb
          exact ⟨w, hw.2⟩
      intro a b hr hb
      obtain ⟨u, hu⟩ := reached a hr
      obtain ⟨w, hw⟩ := (at_ a u hu).inside b hb
      exact hw.1
    · rw [h2.new a v (Nat.zero_le _) ha]
      constructor
      · rintro (⟨u, n, h⟩ | h)
        · exact ⟨n, u, h⟩
        · cases h
      · rintro ⟨n, u, h⟩
        exact .inl ⟨u, n, h⟩

end Thors
