import Verif.Proofs.RawBuffer
import Verif.Props.Custom
/-
C117: imports do not depend on other imports.
-/
namespace Thors.Props
open Thors Thors.Spec StrIn

/-- C117. The history: whatever was imported before, completely or not, a complete BSON document gives the value that is in it. -/
theorem C117_history_document {V : Type} (S : Streamed V) (left : Bytes → Bytes → Bytes) (before : List (CVal V × Bytes)) (buf : Bytes)
    (v : BTree) (h : Storable32 v) (x y : CVal V) (hy : CVal.read S bsem.raw x v = some y) (rest : Bytes) :
    (bsonCustomImports S left (before ++ [(x, bdoc v ++ rest)]) buf).1 = (bsonCustomImports S left before buf).1 ++ [.ok y] := by
  rw [bsonCustomImports_append]
  obtain ⟨buf', e⟩ := bsonCustomImportIn_doc S h hy rest (bsonCustomImports S left before buf).2
  simp only [bsonCustomImports, e]
  rfl

/-- C117. The history, for any input: if an import succeeds after some imports, it succeeds after any others, with the same value. -/
theorem C117_history {V : Type} (S : Streamed V) (left left' : Bytes → Bytes → Bytes) (before before' : List (CVal V × Bytes)) (buf buf' : Bytes) (x y : CVal V) (t : Bytes)
    (h : (bsonCustomImports S left (before ++ [(x, t)]) buf).1 = (bsonCustomImports S left before buf).1 ++ [.ok y]) :
    (bsonCustomImports S left' (before' ++ [(x, t)]) buf').1 = (bsonCustomImports S left' before' buf').1 ++ [.ok y] := by
  rw [bsonCustomImports_append] at h ⊢
  have h := List.append_cancel_left h
  simp only [bsonCustomImports, List.cons.injEq, and_true] at h ⊢
  obtain ⟨⟨v, b⟩, e, h⟩ := Res.bind_ok h
  cases h
  obtain ⟨b', e'⟩ := bsonCustomImportIn_two S _ (bsonCustomImports S left' before' buf').2 x t e
  rw [e']
  rfl

/-- The threads are about to import the documents `ts`. -/
def Importing (ts : List Bytes) (p : RawProgram) : Prop :=
  p.threads.length = ts.length ∧ ∀ (i : Nat) (t : Bytes) (th : RawThread), ts[i]? = some t → p.threads[i]? = some th → th.texts = [] ∧ importActs t = .ok th.todo

/-- C117. Threads, if no thread runs between the moment in which another one fills the buffer and that in which it copies it (as with a lock): every thread that has come to its
end has read its objects from the texts of its document. -/
theorem C117_locked_partial (ts : List Bytes) (p : RawProgram) (hp : Importing ts p) (js : List Nat) (i : Nat) (t : Bytes) (hi : ts[i]? = some t) (th : RawThread)
    (hth : (p.run (js.flatMap fun j => [j, j])).threads[i]? = some th) (done : th.todo = []) :
    bsonCustomImport textKeeper (.vec []) t = .ok (.vec th.texts) := by
  have acts : ∀ t as, importActs t = .ok as → ∃ bs, bsonCustomImport textKeeper (.vec []) t = .ok (.vec bs) ∧ as = bs.flatMap fun b => [.fill b, .copy] := by
    intro t as h
    obtain ⟨x, e, h⟩ := Res.bind_ok h
    have hv : ∃ bs, x = .vec bs := by
      unfold bsonCustomImport at e
      obtain ⟨⟨y, p⟩, e1, e2⟩ := Res.bind_ok e
      cases e2
      unfold customImport at e1
      obtain ⟨⟨k, p1⟩, -, e1⟩ := Res.bind_ok e1
      simp only at e1
      split at e1
      · cases e1
      obtain ⟨⟨z, p2⟩, e3, e1⟩ := Res.bind_ok e1
      obtain ⟨⟨k, p3⟩, -, e1⟩ := Res.bind_ok e1
      simp only at e1
      split at e1
      · cases e1
      cases e1
      unfold streamedRead at e3
      obtain ⟨⟨k, p4⟩, -, e3⟩ := Res.bind_ok e3
      simp only at e3
      split at e3
      · cases e3
      obtain ⟨⟨vs, p5⟩, -, e3⟩ := Res.bind_ok e3
      cases e3
      exact ⟨vs, rfl⟩
    obtain ⟨bs, rfl⟩ := hv
    cases h
    exact ⟨bs, e, rfl⟩
  let texts : Bytes → List Bytes := fun t => match bsonCustomImport textKeeper (.vec []) t with | .ok (.vec bs) => bs | _ => []
  have hb : Between (ts.map texts) p := by
    intro k th hk
    have hlt : k < ts.length := by
      rw [← hp.1]
      rcases Nat.lt_or_ge k p.threads.length with h | h
      · exact h
      · rw [List.getElem?_eq_none h] at hk; cases hk
    obtain ⟨t1, t2⟩ := hp.2 k ts[k] th (List.getElem?_eq_getElem hlt) hk
    obtain ⟨bs, e1, e2⟩ := acts _ _ t2
    refine ⟨[], bs, ?_, t1, e2⟩
    rw [List.getElem?_map, List.getElem?_eq_getElem hlt]
    simp [texts, e1]
  obtain ⟨d, left, h1, h2, h3⟩ := between_run js hb i th hth
  have hl : left = [] := by
    cases left with
    | nil => rfl
    | cons b l => rw [done] at h3; simp at h3
  subst hl
  rw [List.getElem?_map, hi] at h1
  simp only [Option.map_some, Option.some.injEq, List.append_nil] at h1
  have hlt : i < p.threads.length := by
    rw [hp.1]
    rcases Nat.lt_or_ge i ts.length with h | h
    · exact h
    · rw [List.getElem?_eq_none h] at hi; cases hi
  obtain ⟨-, t2⟩ := hp.2 i t _ hi (List.getElem?_eq_getElem hlt)
  obtain ⟨bs, e1, -⟩ := acts _ _ t2
  rw [h2, ← h1]
  simp only [texts, e1]

/-- A document with a text of a class. -/
def secretBson : Bytes := bdoc (.scalar (.bin 0x80 b!"\"secret\""))

example : Storable32 (.scalar (.bin 0x80 b!"\"secret\"")) := ⟨trivial, trivial, by decide +kernel⟩

example (left : Bytes → Bytes → Bytes) (before : List (CVal Bytes × Bytes)) (buf : Bytes) :
    (bsonCustomImports quoted left (before ++ [(.one [], secretBson)]) buf).1 = (bsonCustomImports quoted left before buf).1 ++ [.ok (.one b!"secret")] := by
  have := C117_history_document quoted left before buf (.scalar (.bin 0x80 b!"\"secret\"")) ⟨trivial, trivial, by decide +kernel⟩ (.one []) (.one b!"secret") rfl []
  rwa [List.append_nil] at this

/-- A document that says that it has 6 bytes of data, and ends. -/
def cutDoc : Bytes := [0x13, 0x00, 0x00, 0x00, 0x05, 0x30, 0x00, 0x06, 0x00, 0x00, 0x00, 0x80]

/-- C117 is false of threads: one thread fills the buffer, another one fills it, the first one reads its object from the text of the second. -/
theorem C117_false : ∃ (ts : List Bytes) (p : RawProgram) (schedule : List Nat) (i : Nat) (t : Bytes) (th : RawThread), Importing ts p ∧ ts[i]? = some t ∧
    (p.run schedule).threads[i]? = some th ∧ th.todo = [] ∧ bsonCustomImport textKeeper (.vec []) t = .ok (.vec [b!"mine"]) ∧ th.texts = [b!"yours"] := by
  have imp : ∀ b : Bytes, Storable32 (.arr [.scalar (.bin 0x80 b)]) →
      bsonCustomImport textKeeper (.vec []) (bdoc (.arr [.scalar (.bin 0x80 b)])) = .ok (.vec [b]) := fun b h => by
    have := bsonCustomImport_doc textKeeper h (x := .vec []) (y := .vec [b]) rfl []
    rwa [List.append_nil] at this
  have h1 := imp b!"mine" ⟨⟨trivial, trivial⟩, ⟨trivial, trivial⟩, by decide +kernel⟩
  have h2 := imp b!"yours" ⟨⟨trivial, trivial⟩, ⟨trivial, trivial⟩, by decide +kernel⟩
  refine ⟨[bdoc (.arr [.scalar (.bin 0x80 b!"mine")]), bdoc (.arr [.scalar (.bin 0x80 b!"yours")])],
    ⟨[], [⟨[.fill b!"mine", .copy], []⟩, ⟨[.fill b!"yours", .copy], []⟩]⟩, [0, 1, 0, 1], 0, _, ⟨[], [b!"yours"]⟩, ⟨rfl, ?_⟩, rfl, rfl, rfl, h1, rfl⟩
  intro i t th ht hth
  match i with
  | 0 => cases ht; cases hth; exact ⟨rfl, by rw [importActs, h1]; rfl⟩
  | 1 => cases ht; cases hth; exact ⟨rfl, by rw [importActs, h2]; rfl⟩
  | _ + 2 => cases ht

/-- C117 is false of objects whose import fails: after the import of a document with a secret, a cut document leaves in the object what the document does not contain. -/
theorem C117_failed_false : ∃ buf : Bytes, bsonCustomImportIn textKeeper [] (.one []) secretBson = .ok (.one b!"\"secret\"", buf) ∧
    (∃ e, bsonCustomImportIn textKeeper buf (.one []) cutDoc = .throw e) ∧ bsonCustomLeft textKeeper buf [] cutDoc = b!"\"secre" := by
  refine ⟨b!"\"secret\"", ?_, ⟨.std, ?_⟩, ?_⟩
  · rfl
  · rfl
  · rfl

example : bsonCustomLeft textKeeper [] [] cutDoc = List.replicate 6 0x00 := by rfl

end Thors.Props
