import Verif.Spec.Shared
import Verif.Proofs.SerDoc
/-
Exporting a graph without cycles: the calls are those of its document.
-/
namespace Thors
open Spec StrIn

/-- Induction on values. -/
theorem SVal.induct {P : SVal → Prop} (hp : ∀ v, P (.plain v)) (ho : ∀ fs, (∀ v ∈ fs, P v) → P (.obj fs))
    (hl : ∀ vs, (∀ v ∈ vs, P v) → P (.list vs)) (hh : ∀ l a, P (.handle l a)) (hu : P .unset) : ∀ v, P v
  | .plain v => hp v
  | .obj fs => ho fs (all fs)
  | .list vs => hl vs (all vs)
  | .handle l a => hh l a
  | .unset => hu
where
  all : ∀ vs : List SVal, ∀ v ∈ vs, P v
  | [], _, h => absurd h List.not_mem_nil
  | v :: vs, u, h => by
    rcases List.mem_cons.mp h with h | h
    · rw [h]; exact SVal.induct hp ho hl hh hu v
    · exact all vs u h

section
variable (S : SEnv) (mk : Bytes) (cell : Nat → STy) (okKey : Bytes → Prop) (okAtom : Atom → Prop) (H : Nat → SVal)
variable (D : Nat → Prop) (rank : Nat → Nat)

/-- The objects that matter. -/
structure HeapOk : Prop where
  down : ∀ a b, D a → b ∈ targets (H a) → D b ∧ rank b < rank a
  typed : ∀ a, D a → STyped S mk cell okKey okAtom (cell a) (H a)
  nodup : ∀ a, D a → (locs (H a)).Nodup
  pair : ∀ a b, D a → D b → a ≠ b → ∀ l ∈ locs (H a), l ∉ locs (H b)

/-- Before writing a value with handles at `L` and targets `T` of rank below `n`. -/
structure ExPre (n : Nat) (sv : Saved) (done L T : List Nat) : Prop where
  dom : ∀ a, rank a < n → (a ∈ done ↔ sv.lookup a ≠ none)
  fresh : ∀ b l, sv.lookup b = some l → l ∉ L
  freshH : ∀ c, D c → rank c < n → c ∉ done → ∀ b l, sv.lookup b = some l → l ∉ locs (H c)
  nodup : L.Nodup
  sep : ∀ c, D c → rank c < n → ∀ l ∈ L, l ∉ locs (H c)
  tgt : ∀ b ∈ T, D b ∧ rank b < n

/-- After it. -/
structure ExPost (n : Nat) (sv : Saved) (done L : List Nat) (sv' : Saved) (done' : List Nat) : Prop where
  dom : ∀ a, rank a < n → (a ∈ done' ↔ sv'.lookup a ≠ none)
  frame : ∀ a, n ≤ rank a → sv'.lookup a = sv.lookup a ∧ (a ∈ done' ↔ a ∈ done)
  grow : ∀ a ∈ done, a ∈ done'
  only : ∀ a ∈ done', a ∈ done ∨ D a
  new : ∀ b l, sv'.lookup b = some l → sv.lookup b = some l ∨ l ∈ L ∨
    ∃ c, c ∈ done' ∧ c ∉ done ∧ D c ∧ rank c < n ∧ l ∈ locs (H c)

variable {S mk cell okKey okAtom H D rank}

theorem ExPre.left {n : Nat} {sv : Saved} {done L1 L2 T1 T2 : List Nat} (h : ExPre H D rank n sv done (L1 ++ L2) (T1 ++ T2)) :
    ExPre H D rank n sv done L1 T1 where
  dom := h.dom
  fresh b l e hl := h.fresh b l e (by simp [hl])
  freshH := h.freshH
  nodup := (List.nodup_append.1 h.nodup).1
  sep c hc hr l hl := h.sep c hc hr l (by simp [hl])
  tgt b hb := h.tgt b (by simp [hb])

theorem ExPre.right (K : HeapOk S mk cell okKey okAtom H D rank) {n : Nat} {sv sv' : Saved} {done done' L1 L2 T1 T2 : List Nat}
    (h : ExPre H D rank n sv done (L1 ++ L2) (T1 ++ T2)) (q : ExPost H D rank n sv done L1 sv' done') :
    ExPre H D rank n sv' done' L2 T2 where
  dom := q.dom
  fresh b l e hl := by
    rcases q.new b l e with e1 | e1 | ⟨c, h1, h2, h3, h4, h5⟩
    · exact h.fresh b l e1 (by simp [hl])
    · exact (List.nodup_append.1 h.nodup).2.2 l e1 l hl rfl
    · exact h.sep c h3 h4 l (by simp [hl]) h5
  freshH c hc hr hd b l e hl := by
    rcases q.new b l e with e1 | e1 | ⟨c', h1, h2, h3, h4, h5⟩
    · exact h.freshH c hc hr (fun hx => hd (q.grow c hx)) b l e1 hl
    · exact h.sep c hc hr l (by simp [e1]) hl
    · exact K.pair c' c h3 hc (fun e => hd (e ▸ h1)) l h5 hl
  nodup := (List.nodup_append.1 h.nodup).2.1
  sep c hc hr l hl := h.sep c hc hr l (by simp [hl])
  tgt b hb := h.tgt b (by simp [hb])

theorem ExPost.append {n : Nat} {sv sv' sv'' : Saved} {done done' done'' L1 L2 : List Nat}
    (q1 : ExPost H D rank n sv done L1 sv' done') (q2 : ExPost H D rank n sv' done' L2 sv'' done'') :
    ExPost H D rank n sv done (L1 ++ L2) sv'' done'' where
  dom := q2.dom
  frame a ha := ⟨(q2.frame a ha).1.trans (q1.frame a ha).1, (q2.frame a ha).2.trans (q1.frame a ha).2⟩
  grow a ha := q2.grow a (q1.grow a ha)
  only a ha := (q2.only a ha).elim (q1.only a) .inr
  new b l e := by
    rcases q2.new b l e with e1 | e1 | ⟨c, h1, h2, h3, h4, h5⟩
    · rcases q1.new b l e1 with e2 | e2 | ⟨c, h1, h2, h3, h4, h5⟩
      · exact .inl e2
      · exact .inr (.inl (by simp [e2]))
      · exact .inr (.inr ⟨c, q2.grow c h1, h2, h3, h4, h5⟩)
    · exact .inr (.inl (by simp [e1]))
    · exact .inr (.inr ⟨c, h1, fun hx => h2 (q1.grow c hx), h3, h4, h5⟩)

theorem ExPre.stay {n : Nat} {sv : Saved} {done L T : List Nat} (h : ExPre H D rank n sv done L T) (L' : List Nat) : ExPost H D rank n sv done L' sv done where
  dom := h.dom
  frame _ _ := ⟨rfl, Iff.rfl⟩
  grow _ h := h
  only _ h := .inl h
  new _ _ e := .inl e

theorem lookup_cons_ne {a b l : Nat} {sv : Saved} (h : b ≠ a) : ((a, l) :: sv).lookup b = sv.lookup b := by
  simp [List.lookup, show (b == a) = false by simp [h]]

theorem lookup_cons_eq {a l : Nat} {sv : Saved} : ((a, l) :: sv).lookup a = some l := by simp [List.lookup]

/-- The entries of the first table are in the second. -/
def Ext (sv F : Saved) : Prop := ∀ a l, sv.lookup a = some l → F.lookup a = some l

theorem Ext.refl (sv : Saved) : Ext sv sv := fun _ _ h => h
theorem Ext.trans {a b c : Saved} (h1 : Ext a b) (h2 : Ext b c) : Ext a c := fun _ _ h => h2 _ _ (h1 _ _ h)
theorem Ext.cons {a l : Nat} {sv : Saved} (h : sv.lookup a = none) : Ext sv ((a, l) :: sv) := by
  intro b l' e
  have : b ≠ a := by rintro rfl; rw [h] at e; cases e
  rw [lookup_cons_ne this]; exact e

section
variable (S : SEnv) (mk : Bytes) (H : Nat → SVal) (F : Saved)
mutual
/-- `SDoc`, where `F` tells for each object the handle with which its data is written. -/
inductive FDoc : STy → SVal → List Nat → Doc → List Nat → Prop
  | plain {t v done d} : docOf S.env mk t v = .ok d → FDoc (.plain t) (.plain v) done d done
  | list {t vs done ds done'} : FDocs t vs done ds done' → FDoc (.vec t) (.list vs) done (.arr ds) done'
  | obj {c fs done ms done'} : FDocMembers (S.classes c) fs done ms done' → FDoc (.cls c) (.obj fs) done (.obj ms) done'
  | null {t l done} : FDoc (.shared t) (.handle l none) done (.scalar .null) done
  | again {t l a done l0} : a ∈ done → F.lookup a = some l0 → l0 ≠ l →
      FDoc (.shared t) (.handle l (some a)) done (.obj [(infoName, .scalar (.int intmax a))]) done
  | first {t l a done d done'} : a ∉ done' → F.lookup a = some l → FDoc t (H a) done d done' →
      FDoc (.shared t) (.handle l (some a)) done (.obj [(infoName, .scalar (.int intmax a)), (infoData, d)]) (a :: done')
inductive FDocs : STy → List SVal → List Nat → List Doc → List Nat → Prop
  | nil {t done} : FDocs t [] done [] done
  | cons {t v vs done d done' ds done''} : FDoc t v done d done' → FDocs t vs done' ds done'' →
      FDocs t (v :: vs) done (d :: ds) done''
inductive FDocMembers : List (Bytes × STy) → List SVal → List Nat → List (Bytes × Doc) → List Nat → Prop
  | nil {done} : FDocMembers [] [] done [] done
  | cons {n t ms v fs done d done' ds done''} : FDoc t v done d done' → FDocMembers ms fs done' ds done'' →
      FDocMembers ((n, t) :: ms) (v :: fs) done ((n, d) :: ds) done''
end
end

/-- What is to be shown for a value. -/
def Exports (S : SEnv) (mk : Bytes) (cell : Nat → STy) (okKey : Bytes → Prop) (okAtom : Atom → Prop) (H : Nat → SVal)
    (D : Nat → Prop) (rank : Nat → Nat) (n : Nat) (v : SVal) : Prop :=
  ∀ t sv done, STyped S mk cell okKey okAtom t v → ExPre H D rank n sv done (locs v) (targets v) →
    ∃ d sv' done', sser S mk H t v sv = .ok (cmdsOf d, sv') ∧ SDoc S mk H t v done d done' ∧
      ExPost H D rank n sv done (locs v) sv' done' ∧ Ext sv sv' ∧ ∀ F, Ext sv' F → FDoc S mk H F t v done d done'

theorem exports_all (K : HeapOk S mk cell okKey okAtom H D rank) {n : Nat} (t : STy) : ∀ (vs : List SVal)
    (_ : ∀ v ∈ vs, Exports S mk cell okKey okAtom H D rank n v) (sv : Saved) (done : List Nat),
    STyped.all S mk cell okKey okAtom t vs → ExPre H D rank n sv done (locs.all vs) (targets.all vs) →
    ∃ ds sv' done', sserList S mk H t vs sv = .ok (cmdsOf.elems ds, sv') ∧ SDocs S mk H t vs done ds done' ∧
      ExPost H D rank n sv done (locs.all vs) sv' done' ∧ Ext sv sv' ∧ ∀ F, Ext sv' F → FDocs S mk H F t vs done ds done'
  | [], _, sv, done, _, hp => ⟨[], sv, done, by rw [sserList]; rfl, .nil, hp.stay _, .refl _, fun _ _ => .nil⟩
  | v :: vs, ih, sv, done, ht, hp => by
    obtain ⟨d, sv1, done1, e1, h1, q1, x1, f1⟩ := ih v (by simp) t sv done ht.1 hp.left
    obtain ⟨ds, sv2, done2, e2, h2, q2, x2, f2⟩ := exports_all K t vs (fun v hv => ih v (by simp [hv])) sv1 done1 ht.2 (hp.right K q1)
    exact ⟨d :: ds, sv2, done2, by rw [sserList, e1]; simp [e2, cmdsOf.elems], .cons h1 h2, q1.append q2, x1.trans x2, fun F hF => .cons (f1 F (x2.trans hF)) (f2 F hF)⟩

theorem exports_members (K : HeapOk S mk cell okKey okAtom H D rank) {n : Nat} : ∀ (ms : List (Bytes × STy)) (vs : List SVal)
    (_ : ∀ v ∈ vs, Exports S mk cell okKey okAtom H D rank n v) (sv : Saved) (done : List Nat),
    STyped.members S mk cell okKey okAtom ms vs → ExPre H D rank n sv done (locs.all vs) (targets.all vs) →
    ∃ ds sv' done', sserMembers S mk H ms vs sv = .ok (cmdsOf.members ds, sv') ∧ SDocMembers S mk H ms vs done ds done' ∧
      ExPost H D rank n sv done (locs.all vs) sv' done' ∧ Ext sv sv' ∧ ∀ F, Ext sv' F → FDocMembers S mk H F ms vs done ds done'
  | [], [], _, sv, done, _, hp => ⟨[], sv, done, by rw [sserMembers]; rfl, .nil, hp.stay _, .refl _, fun _ _ => .nil⟩
  | (m, t) :: ms, v :: vs, ih, sv, done, ht, hp => by
    obtain ⟨d, sv1, done1, e1, h1, q1, x1, f1⟩ := ih v (by simp) t sv done ht.1 hp.left
    obtain ⟨ds, sv2, done2, e2, h2, q2, x2, f2⟩ := exports_members K ms vs (fun v hv => ih v (by simp [hv])) sv1 done1 ht.2 (hp.right K q1)
    exact ⟨(m, d) :: ds, sv2, done2, by rw [sserMembers, e1]; simp [e2, cmdsOf.members], .cons h1 h2, q1.append q2, x1.trans x2, fun F hF => .cons (f1 F (x2.trans hF)) (f2 F hF)⟩
  | [], _ :: _, _, _, _, ht, _ => ht.elim
  | _ :: _, [], _, _, _, ht, _ => ht.elim

/-- Every value of a graph without cycles is exported as its document. -/
theorem exports (K : HeapOk S mk cell okKey okAtom H D rank) : ∀ (n : Nat) (v : SVal), Exports S mk cell okKey okAtom H D rank n v := by
  intro n
  induction n using Nat.strongRecOn with
  | ind n ihn =>
  intro v
  induction v using SVal.induct with
  | hp v =>
    intro t sv done ht hp
    cases t with
    | plain t =>
      obtain ⟨-, d, hd, -⟩ := ht
      refine ⟨d, sv, done, ?_, .plain hd, hp.stay _, .refl _, fun _ _ => .plain hd⟩
      rw [sser]
      simp only [ser_doc, hd]
      rfl
    | _ => exact ht.elim
  | ho fs ih =>
    intro t sv done ht hp
    cases t with
    | cls c =>
      obtain ⟨ds, sv', done', e, h, q, x, f⟩ := exports_members K (S.classes c) fs ih sv done ht hp
      exact ⟨.obj ds, sv', done', by rw [sser]; simp [e, cmdsOf], .obj h, q, x, fun F hF => .obj (f F hF)⟩
    | _ => exact ht.elim
  | hl vs ih =>
    intro t sv done ht hp
    cases t with
    | vec t =>
      obtain ⟨ds, sv', done', e, h, q, x, f⟩ := exports_all K t vs ih sv done ht hp
      exact ⟨.arr ds, sv', done', by rw [sser]; simp [e, cmdsOf], .list h, q, x, fun F hF => .list (f F hF)⟩
    | _ => exact ht.elim
  | hu => intro t sv done ht hp; cases t <;> exact ht.elim
  | hh l a =>
    intro t sv done ht hp
    cases t with
    | shared t =>
      cases a with
      | none => exact ⟨_, sv, done, by rw [sser]; rfl, .null, hp.stay _, .refl _, fun _ _ => .null⟩
      | some a =>
        obtain ⟨hDa, hra⟩ := hp.tgt a (by simp [targets])
        by_cases hd : a ∈ done
        · have hl := (hp.dom a hra).1 hd
          cases e : sv.lookup a with
          | none => exact absurd e hl
          | some l0 =>
            have hne : (l0 == l) = false := by
              simp only [beq_eq_false_iff_ne]
              rintro rfl
              exact hp.fresh a l0 e (by simp [locs])
            refine ⟨_, sv, done, ?_, .again hd, hp.stay _, .refl _, fun F hF => .again hd (hF _ _ e) (by simpa using hne)⟩
            rw [sser]
            simp [addShared, e, hne, cmdsOf, cmdsOf.members, atomCmd]
        · have hn : sv.lookup a = none := by
            cases e : sv.lookup a with
            | none => rfl
            | some l0 => exact absurd ((hp.dom a hra).2 (by simp [e])) hd
          have hpre : ExPre H D rank (rank a) ((a, l) :: sv) done (locs (H a)) (targets (H a)) := by
            refine ⟨?_, ?_, ?_, K.nodup a hDa, ?_, fun b hb => K.down a b hDa hb⟩
            · intro b hb
              rw [lookup_cons_ne (by rintro rfl; omega)]
              exact hp.dom b (by omega)
            · intro b l' e
              by_cases hba : b = a
              · subst hba
                rw [lookup_cons_eq] at e
                cases e
                exact hp.sep b hDa hra l (by simp [locs])
              · rw [lookup_cons_ne hba] at e
                exact hp.freshH a hDa hra hd b l' e
            · intro c hc hr hcd b l' e
              by_cases hba : b = a
              · subst hba
                rw [lookup_cons_eq] at e
                cases e
                exact hp.sep c hc (by omega) l (by simp [locs])
              · rw [lookup_cons_ne hba] at e
                exact hp.freshH c hc (by omega) hcd b l' e
            · intro c hc hr l' hl'
              exact K.pair a c hDa hc (by rintro rfl; omega) l' hl'
          obtain ⟨d, sv1, done1, e1, h1, q1, x1, f1⟩ := ihn (rank a) hra (H a) t _ done (ht.1 ▸ K.typed a hDa) hpre
          have hf := q1.frame a (Nat.le_refl _)
          rw [lookup_cons_eq] at hf
          refine ⟨_, sv1, a :: done1, ?_, .first (fun h => hd (hf.2.1 h)) h1, ?_, (Ext.cons hn).trans x1,
            fun F hF => .first (fun h => hd (hf.2.1 h)) (hF _ _ hf.1) (f1 F hF)⟩
          · rw [sser]
            simp [addShared, hn, e1, cmdsOf, cmdsOf.members, atomCmd]
          · refine ⟨?_, ?_, ?_, ?_, ?_⟩
            · intro b hb
              by_cases hba : b = a
              · subst hba; simp [hf.1]
              · by_cases hbr : rank b < rank a
                · simp only [List.mem_cons, hba, false_or]; exact q1.dom b hbr
                · have := q1.frame b (by omega)
                  rw [lookup_cons_ne hba] at this
                  simp only [List.mem_cons, hba, false_or, this.1, this.2]
                  exact hp.dom b hb
            · intro b hb
              have hba : b ≠ a := by rintro rfl; omega
              have := q1.frame b (by omega)
              rw [lookup_cons_ne hba] at this
              simp only [List.mem_cons, hba, false_or]
              exact this
            · intro b hb
              exact List.mem_cons_of_mem _ (q1.grow b hb)
            · intro b hb
              rcases List.mem_cons.1 hb with rfl | hb
              · exact .inr hDa
              · exact q1.only b hb
            · intro b l' e
              rcases q1.new b l' e with e2 | e2 | ⟨c, g1, g2, g3, g4, g5⟩
              · by_cases hba : b = a
                · subst hba
                  rw [lookup_cons_eq] at e2
                  cases e2
                  exact .inr (.inl (by simp [locs]))
                · rw [lookup_cons_ne hba] at e2
                  exact .inl e2
              · exact .inr (.inr ⟨a, by simp, hd, hDa, hra, e2⟩)
              · exact .inr (.inr ⟨c, by simp [g1], g2, g3, by omega, g5⟩)
    | _ => exact ht.elim

end
end Thors
