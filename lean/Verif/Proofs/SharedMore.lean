import Verif.Spec.SharedBson
import Verif.Proofs.SharedJson
import Verif.Proofs.BsonExport
/-
Exports of object graphs with a table that is already filled: the second pass of an export to a string, and BSON, where the sizes
are computed before anything is written.
-/
namespace Thors
open Spec StrIn BPrint

section
variable {S : SEnv} {mk : Bytes} {cell : Nat → STy} {okKey : Bytes → Prop} {okAtom : Atom → Prop} {H : Nat → SVal} {D : Nat → Prop}
  {info : SizeInfo} {F : Saved}

/-- The table has an entry for each object that was written. -/
def Covers (done : List Nat) (sv : Saved) : Prop := ∀ a ∈ done, sv.lookup a ≠ none

theorem Covers.ext {done : List Nat} {sv sv' : Saved} (h : Covers done sv) (hx : Ext sv sv') : Covers done sv' := by
  intro a ha e
  cases h' : sv.lookup a with
  | none => exact h a ha h'
  | some l => rw [hx a l h'] at e; cases e

theorem addShared_first {sv : Saved} {a l : Nat} (hx : Ext sv F) (hF : F.lookup a = some l) :
    ∃ sv1, addShared l a sv = (true, sv1) ∧ Ext sv sv1 ∧ Ext sv1 F ∧ sv1.lookup a = some l := by
  unfold addShared
  cases h : sv.lookup a with
  | none =>
    refine ⟨_, rfl, .cons h, ?_, lookup_cons_eq⟩
    intro b l' e
    by_cases hb : b = a
    · subst hb; rw [lookup_cons_eq] at e; cases e; exact hF
    · rw [lookup_cons_ne hb] at e; exact hx b l' e
  | some l0 =>
    have := hx a l0 h
    rw [hF] at this
    cases this
    exact ⟨sv, by simp, .refl _, hx, h⟩

theorem addShared_again {done : List Nat} {sv : Saved} {a l l0 : Nat} (hx : Ext sv F) (hc : Covers done sv) (ha : a ∈ done) (hF : F.lookup a = some l0) (hl : l0 ≠ l) :
    addShared l a sv = (false, sv) := by
  unfold addShared
  cases h : sv.lookup a with
  | none => exact absurd h (hc a ha)
  | some l1 =>
    have := hx a l1 h
    rw [hF] at this
    cases this
    simp [hl]

/-- What a step leaves: more in the table, nothing that is not in the final one. -/
structure TableKeeps (F : Saved) (done' : List Nat) (sv sv' : Saved) : Prop where
  more : Ext sv sv'
  fin : Ext sv' F
  cov : Covers done' sv'

theorem TableKeeps.cons {a l : Nat} {done' : List Nat} {sv sv1 sv2 : Saved} (h1 : Ext sv sv1) (h2 : sv1.lookup a = some l) (h : TableKeeps F done' sv1 sv2) :
    TableKeeps F (a :: done') sv sv2 := by
  refine ⟨h1.trans h.more, h.fin, fun b hb => ?_⟩
  rcases List.mem_cons.1 hb with rfl | hb
  · rw [h.more b l h2]; simp
  · exact h.cov b hb

theorem TableKeeps.stay {done : List Nat} {sv : Saved} (hx : Ext sv F) (hc : Covers done sv) : TableKeeps F done sv sv := ⟨.refl _, hx, hc⟩

/-! ### The calls, once more -/

mutual
/-- A pass over a graph with any beginning of the final table gives the calls of its document. -/
theorem fdoc_sser : ∀ {t : STy} {v : SVal} {done done' : List Nat} {d : Doc}, FDoc S mk H F t v done d done' →
    ∀ sv, Ext sv F → Covers done sv → ∃ sv', sser S mk H t v sv = .ok (cmdsOf d, sv') ∧ TableKeeps F done' sv sv'
  | _, _, _, _, _, .plain h, sv, hx, hc => ⟨sv, by rw [sser]; simp only [ser_doc, h]; rfl, .stay hx hc⟩
  | _, _, _, _, _, .list hs, sv, hx, hc => by
    obtain ⟨sv', e, k⟩ := fdocs_sser hs sv hx hc
    exact ⟨sv', by rw [sser]; simp [e, cmdsOf], k⟩
  | _, _, _, _, _, .obj hs, sv, hx, hc => by
    obtain ⟨sv', e, k⟩ := fdocm_sser hs sv hx hc
    exact ⟨sv', by rw [sser]; simp [e, cmdsOf], k⟩
  | _, _, _, _, _, .null, sv, hx, hc => ⟨sv, by rw [sser]; rfl, .stay hx hc⟩
  | _, _, _, _, _, .again hm hF hl, sv, hx, hc => ⟨sv, by rw [sser, addShared_again hx hc hm hF hl]; rfl, .stay hx hc⟩
  | _, _, _, _, _, .first hn hF hs, sv, hx, hc => by
    obtain ⟨sv1, e1, x1, x2, l1⟩ := addShared_first hx hF
    obtain ⟨sv2, e2, k⟩ := fdoc_sser hs sv1 x2 (hc.ext x1)
    exact ⟨sv2, by rw [sser, e1]; simp [e2, cmdsOf, cmdsOf.members, atomCmd], .cons x1 l1 k⟩
theorem fdocs_sser : ∀ {t : STy} {v : List SVal} {done done' : List Nat} {d : List Doc}, FDocs S mk H F t v done d done' →
    ∀ sv, Ext sv F → Covers done sv → ∃ sv', sserList S mk H t v sv = .ok (cmdsOf.elems d, sv') ∧ TableKeeps F done' sv sv'
  | _, _, _, _, _, .nil, sv, hx, hc => ⟨sv, by rw [sserList]; rfl, .stay hx hc⟩
  | _, _, _, _, _, .cons h1 h2, sv, hx, hc => by
    obtain ⟨sv1, e1, k1⟩ := fdoc_sser h1 sv hx hc
    obtain ⟨sv2, e2, k2⟩ := fdocs_sser h2 sv1 k1.fin k1.cov
    exact ⟨sv2, by rw [sserList, e1]; simp [e2, cmdsOf.elems], k1.more.trans k2.more, k2.fin, k2.cov⟩
theorem fdocm_sser : ∀ {t : List (Bytes × STy)} {v : List SVal} {done done' : List Nat} {d : List (Bytes × Doc)}, FDocMembers S mk H F t v done d done' →
    ∀ sv, Ext sv F → Covers done sv → ∃ sv', sserMembers S mk H t v sv = .ok (cmdsOf.members d, sv') ∧ TableKeeps F done' sv sv'
  | _, _, _, _, _, .nil, sv, hx, hc => ⟨sv, by rw [sserMembers]; rfl, .stay hx hc⟩
  | _, _, _, _, _, .cons h1 h2, sv, hx, hc => by
    obtain ⟨sv1, e1, k1⟩ := fdoc_sser h1 sv hx hc
    obtain ⟨sv2, e2, k2⟩ := fdocm_sser h2 sv1 k1.fin k1.cov
    exact ⟨sv2, by rw [sserMembers, e1]; simp [e2, cmdsOf.members], k1.more.trans k2.more, k2.fin, k2.cov⟩
end

/-! ### BSON -/

theorem info_len (a : Nat) (d : Doc) : infoSize (some (dlen d)) = dlen (.obj [(infoName, .scalar (.int intmax a)), (infoData, d)]) := by
  simp only [infoSize, dlen, obj_len, mlen_cons, mlen_nil, int_len, sizeMap]
  omega

theorem info_len_again (a : Nat) : infoSize none = dlen (.obj [(infoName, .scalar (.int intmax a))]) := by
  simp only [infoSize, dlen, obj_len, mlen_cons, mlen_nil, int_len, sizeMap]
  omega

section
variable (hD : ∀ a, D a → STyped S mk cell okKey okAtom (cell a) (H a) ∧ SSized S info true (cell a) (H a) ∧ ∀ b ∈ targets (H a), D b)
include hD

set_option linter.unusedSectionVars false
mutual
/-- The size of a graph is that of its document. -/
theorem fdoc_size : ∀ {t : STy} {v : SVal} {done done' : List Nat} {d : Doc}, FDoc S mk H F t v done d done' →
    STyped S mk cell okKey okAtom t v → (∀ b ∈ targets v, D b) → ∀ p, SSized S info p t v →
    ∀ sv, Ext sv F → Covers done sv → ∃ sv', ssize S mk info H p t v sv = .ok (dlen d, sv') ∧ TableKeeps F done' sv sv'
  | _, _, _, _, _, .plain h, ht, hb, p, hz, sv, hx, hc => ⟨sv, by rw [ssize]; simp only [psize_doc S.env mk info _ p _ _ h hz]; rfl, .stay hx hc⟩
  | _, _, _, _, _, .list hs, ht, hb, p, hz, sv, hx, hc => by
    obtain ⟨n, sv', e, k, hl, hn⟩ := fdocs_size hs ht hb hz sv hx hc
    refine ⟨sv', ?_, k⟩
    rw [ssize]
    simp only [e, Res.ok_bind, Res.pure_eq]
    rw [dlen, arr_len, elems_size (hn 0) rfl]
  | _, _, _, _, _, .obj hs, ht, hb, p, hz, sv, hx, hc => by
    obtain ⟨n, sv', e, k, hl, hn⟩ := fdocm_size hs ht hb hz sv hx hc
    refine ⟨sv', ?_, k⟩
    rw [ssize]
    simp only [e, Res.ok_bind, Res.pure_eq]
    rw [dlen, obj_len, sizeMap, hn]
    congr 2
    omega
  | _, _, _, _, _, .null, ht, hb, p, hz, sv, hx, hc => ⟨sv, by rw [ssize]; rfl, .stay hx hc⟩
  | _, _, _, _, _, .again (a := a) hm hF hl, ht, hb, p, hz, sv, hx, hc =>
    ⟨sv, by rw [ssize, addShared_again hx hc hm hF hl, ← info_len_again a], .stay hx hc⟩
  | _, _, _, _, _, .first (a := a) hn hF hs, ht, hb, p, hz, sv, hx, hc => by
    obtain ⟨sv1, e1, x1, x2, l1⟩ := addShared_first hx hF
    obtain ⟨g1, g2, g3⟩ := hD a (hb a (by simp [targets]))
    obtain ⟨sv2, e2, k⟩ := fdoc_size hs (ht.1 ▸ g1) g3 true (ht.1 ▸ g2) sv1 x2 (hc.ext x1)
    exact ⟨sv2, by rw [ssize, e1]; simp only [e2, Res.ok_bind, Res.pure_eq, ← info_len a], .cons x1 l1 k⟩
theorem fdocs_size : ∀ {t : STy} {v : List SVal} {done done' : List Nat} {d : List Doc}, FDocs S mk H F t v done d done' →
    STyped.all S mk cell okKey okAtom t v → (∀ b ∈ targets.all v, D b) → SSized.all S info t v →
    ∀ sv, Ext sv F → Covers done sv → ∃ n sv', ssizeList S mk info H t v sv = .ok (n, sv') ∧ TableKeeps F done' sv sv' ∧ d.length = v.length ∧
      ∀ i, elen i d + keyLengths i = v.length * 2 + keyLengths (i + v.length) + n
  | _, _, _, _, _, .nil, ht, hb, hz, sv, hx, hc => ⟨0, sv, by rw [ssizeList], .stay hx hc, rfl, fun i => by simp [elen, btree.elems, bpayload.elems]⟩
  | _, _, _, _, _, .cons (vs := vs) (d := d) h1 h2, ht, hb, hz, sv, hx, hc => by
    obtain ⟨sv1, e1, k1⟩ := fdoc_size h1 ht.1 (fun b h => hb b (by simp [targets.all, h])) false hz.1 sv hx hc
    obtain ⟨n, sv2, e2, k2, hl, hn⟩ := fdocs_size h2 ht.2 (fun b h => hb b (by simp [targets.all, h])) hz.2 sv1 k1.fin k1.cov
    refine ⟨dlen d + n, sv2, by rw [ssizeList, e1]; simp [e2], ⟨k1.more.trans k2.more, k2.fin, k2.cov⟩, by simp [hl], ?_⟩
    intro i
    have := hn (i + 1)
    rw [keyLengths_succ] at this
    rw [elen_cons, List.length_cons, show i + (vs.length + 1) = i + 1 + vs.length by omega, dlen]
    omega
theorem fdocm_size : ∀ {t : List (Bytes × STy)} {v : List SVal} {done done' : List Nat} {d : List (Bytes × Doc)}, FDocMembers S mk H F t v done d done' →
    STyped.members S mk cell okKey okAtom t v → (∀ b ∈ targets.all v, D b) → SSized.members S info t v →
    ∀ sv, Ext sv F → Covers done sv → ∃ n sv', ssizeMembers S mk info H t v sv = .ok (n, sv') ∧ TableKeeps F done' sv sv' ∧ d.length = v.length ∧
      mlen d = v.length * 2 + n
  | _, _, _, _, _, .nil, ht, hb, hz, sv, hx, hc => ⟨0, sv, by rw [ssizeMembers], .stay hx hc, rfl, rfl⟩
  | _, _, _, _, _, .cons (n := k) (d := d) h1 h2, ht, hb, hz, sv, hx, hc => by
    obtain ⟨sv1, e1, k1⟩ := fdoc_size h1 ht.1 (fun b h => hb b (by simp [targets.all, h])) false hz.1 sv hx hc
    obtain ⟨n, sv2, e2, k2, hl, hn⟩ := fdocm_size h2 ht.2 (fun b h => hb b (by simp [targets.all, h])) hz.2 sv1 k1.fin k1.cov
    refine ⟨k.length + dlen d + n, sv2, by rw [ssizeMembers, e1]; simp [e2], ⟨k1.more.trans k2.more, k2.fin, k2.cov⟩, by simp [hl], ?_⟩
    rw [mlen_cons, List.length_cons, dlen]
    omega
end

mutual
/-- The calls on the BSON printer are those of the document, with its sizes. -/
theorem fdoc_sserB : ∀ {t : STy} {v : SVal} {done done' : List Nat} {d : Doc}, FDoc S mk H F t v done d done' →
    STyped S mk cell okKey okAtom t v → (∀ b ∈ targets v, D b) → ∀ p, SSized S info p t v →
    ∀ sv, Ext sv F → Covers done sv → ∃ sv', sserB S mk info H t v sv = .ok (scmds d, sv') ∧ TableKeeps F done' sv sv'
  | _, _, _, _, _, .plain h, ht, hb, p, hz, sv, hx, hc => ⟨sv, by rw [sserB, ser_sized S.env mk info _ _ p _ h hz]; rfl, .stay hx hc⟩
  | _, _, _, _, _, .list (t := t) (vs := vs) (ds := ds) hs, ht, hb, p, hz, sv, hx, hc => by
    obtain ⟨sv1, e1, k1⟩ := fdoc_size hD (.list hs) ht hb false hz sv hx hc
    obtain ⟨sv', e, k⟩ := fdocs_sserB hs ht hb hz sv1 k1.fin (hc.ext k1.more)
    exact ⟨sv', by rw [sserB, e1]; simp [e, scmds], k1.more.trans k.more, k.fin, k.cov⟩
  | _, _, _, _, _, .obj hs, ht, hb, p, hz, sv, hx, hc => by
    obtain ⟨sv1, e1, k1⟩ := fdoc_size hD (.obj hs) ht hb false hz sv hx hc
    obtain ⟨sv', e, k⟩ := fdocm_sserB hs ht hb hz sv1 k1.fin (hc.ext k1.more)
    exact ⟨sv', by rw [sserB, e1]; simp [e, scmds], k1.more.trans k.more, k.fin, k.cov⟩
  | _, _, _, _, _, .null, ht, hb, p, hz, sv, hx, hc => ⟨sv, by rw [sserB]; rfl, .stay hx hc⟩
  | _, _, _, _, _, .again (a := a) hm hF hl, ht, hb, p, hz, sv, hx, hc =>
    ⟨sv, by rw [sserB, addShared_again hx hc hm hF hl, scmds, ← info_len_again a]; rfl, .stay hx hc⟩
  | _, _, _, _, _, .first (a := a) hn hF hs, ht, hb, p, hz, sv, hx, hc => by
    obtain ⟨sv1, e1, x1, x2, l1⟩ := addShared_first hx hF
    obtain ⟨g1, g2, g3⟩ := hD a (hb a (by simp [targets]))
    obtain ⟨sv2, e2, k2⟩ := fdoc_size hD hs (ht.1 ▸ g1) g3 true (ht.1 ▸ g2) sv1 x2 (hc.ext x1)
    obtain ⟨sv3, e3, k3⟩ := fdoc_sserB hs (ht.1 ▸ g1) g3 true (ht.1 ▸ g2) sv2 k2.fin ((hc.ext x1).ext k2.more)
    refine ⟨sv3, ?_, .cons (x1.trans k2.more) (k2.more _ _ l1) k3⟩
    rw [sserB, e1]
    simp [e2, e3, scmds, scmds.members, atomCmd, ← info_len a]
theorem fdocs_sserB : ∀ {t : STy} {v : List SVal} {done done' : List Nat} {d : List Doc}, FDocs S mk H F t v done d done' →
    STyped.all S mk cell okKey okAtom t v → (∀ b ∈ targets.all v, D b) → SSized.all S info t v →
    ∀ sv, Ext sv F → Covers done sv → ∃ sv', sserBList S mk info H t v sv = .ok (scmds.elems d, sv') ∧ TableKeeps F done' sv sv'
  | _, _, _, _, _, .nil, ht, hb, hz, sv, hx, hc => ⟨sv, by rw [sserBList]; rfl, .stay hx hc⟩
  | _, _, _, _, _, .cons h1 h2, ht, hb, hz, sv, hx, hc => by
    obtain ⟨sv1, e1, k1⟩ := fdoc_sserB h1 ht.1 (fun b h => hb b (by simp [targets.all, h])) false hz.1 sv hx hc
    obtain ⟨sv2, e2, k2⟩ := fdocs_sserB h2 ht.2 (fun b h => hb b (by simp [targets.all, h])) hz.2 sv1 k1.fin k1.cov
    exact ⟨sv2, by rw [sserBList, e1]; simp [e2, scmds.elems], k1.more.trans k2.more, k2.fin, k2.cov⟩
theorem fdocm_sserB : ∀ {t : List (Bytes × STy)} {v : List SVal} {done done' : List Nat} {d : List (Bytes × Doc)}, FDocMembers S mk H F t v done d done' →
    STyped.members S mk cell okKey okAtom t v → (∀ b ∈ targets.all v, D b) → SSized.members S info t v →
    ∀ sv, Ext sv F → Covers done sv → ∃ sv', sserBMembers S mk info H t v sv = .ok (scmds.members d, sv') ∧ TableKeeps F done' sv sv'
  | _, _, _, _, _, .nil, ht, hb, hz, sv, hx, hc => ⟨sv, by rw [sserBMembers]; rfl, .stay hx hc⟩
  | _, _, _, _, _, .cons h1 h2, ht, hb, hz, sv, hx, hc => by
    obtain ⟨sv1, e1, k1⟩ := fdoc_sserB h1 ht.1 (fun b h => hb b (by simp [targets.all, h])) false hz.1 sv hx hc
    obtain ⟨sv2, e2, k2⟩ := fdocm_sserB h2 ht.2 (fun b h => hb b (by simp [targets.all, h])) hz.2 sv1 k1.fin k1.cov
    exact ⟨sv2, by rw [sserBMembers, e1]; simp [e2, scmds.members], k1.more.trans k2.more, k2.fin, k2.cov⟩
end
end
end
end Thors
