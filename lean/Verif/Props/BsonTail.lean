import Verif.Proofs.BsonTail
import Verif.Props.Bson
import Verif.Props.BsonStream
/-
C109: what is behind a BSON document, and how the outcome of an import is reported.
-/
namespace Thors.Props
open Spec StrIn

/-- Only white space. -/
def Blanks (t : Bytes) : Prop := ∀ c ∈ t, c = 0x20 ∨ c = 0x09 ∨ c = 0x0A ∨ c = 0x0D ∨ c = 0x0B ∨ c = 0x0C

/-- A failed import: it returns `false`, or throws if the configuration lets exceptions out; a stream is marked as failed. -/
def Failed (pol : Policy) (r : Report Val) : Prop :=
  r = if pol.catchExceptions then ⟨.returned false none, some false⟩ else ⟨.raised .std, some false⟩

/-- A successful import: it returns `true`, with the value; a stream is still good. -/
def Succeeded (v : Val) (r : Report Val) : Prop := r = ⟨.returned true (some v), some true⟩

theorem blanks_iff (t : Bytes) : Blanks t ↔ ∀ c ∈ t, c ∈ blank := by
  unfold Blanks
  simp [blank]

/-- The import of a document with anything behind it, from a string or from a stream in front of it. -/
inductive Imports (env : Env) (cfg : Cfg) (pol : Policy) (ty : Ty) (old : Val) (bytes : Bytes) : Report Val → Prop
  | string : Imports env cfg pol ty old bytes (bsonExtract env cfg pol ty old bytes)
  | stream (i : IStr) (hi : Stands bytes i) : Imports env cfg pol ty old bytes (bsonStreamExtract env cfg pol ty old i)

theorem imports_eq {env : Env} {cfg : Cfg} {pol : Policy} {ty : Ty} {old : Val} {t : BTree} {rest : Bytes} {r : Report Val} (hr : Imports env cfg pol ty old (bdoc t ++ rest) r)
    (h : Storable32 t) (hb : bsonBase env ty = BsonP.rootKind t) :
    r = match bsonImport env cfg ty old (bdoc t ++ rest) with
      | .ok v => tailFate pol t rest v
      | .throw e => pol.handle e
      | .ub => ⟨.ub, none⟩ := by
  rw [bsonImport_doc env cfg t h rest ty hb]
  cases hr with
  | string => exact bsonExtract_doc env cfg pol t h rest ty hb old
  | stream i hi => exact bsonStreamExtract_doc env cfg pol t h rest ty hb old hi

/-- C109, proved part: the check for trailing data. For every array or object at the top, with any bytes behind it, from a string and from a stream: what can be imported is
imported if the check is off or only white space follows, and the import fails otherwise. Missing: scalars at the top, see `C109_false`. -/
theorem C109_tail_partial (env : Env) (cfg : Cfg) (pol : Policy) (ty : Ty) (old v : Val) (t : BTree) (rest : Bytes) (r : Report Val) (h : Storable32 t)
    (hb : bsonBase env ty = BsonP.rootKind t) (ht : bsonBase env ty ≠ .Value) (hv : bsonImport env cfg ty old (bdoc t ++ rest) = .ok v)
    (hr : Imports env cfg pol ty old (bdoc t ++ rest) r) :
    (pol.validateNoTrailingData = false ∨ Blanks rest → Succeeded v r) ∧ (pol.validateNoTrailingData = true → ¬ Blanks rest → Failed pol r) := by
  have e := imports_eq hr h hb
  rw [hv] at e
  dsimp only at e
  rw [hb] at ht
  subst e
  unfold Succeeded Failed tailFate
  rw [blanks_iff]
  constructor
  · rintro (hf | hw)
    · rw [if_neg (by rw [hf]; simp)]
    · rw [if_neg ht, if_pos hw]
      cases pol.validateNoTrailingData <;> rfl
  · intro hp hw
    rw [if_pos hp, if_neg ht, if_neg hw]
    cases hc : pol.catchExceptions <;> simp [Policy.handle, hc]

/-- C109, a document that cannot be imported, of any kind: the import fails whatever is behind it and whether or not that is checked. -/
theorem C109_failure (env : Env) (cfg : Cfg) (pol : Policy) (ty : Ty) (old : Val) (t : BTree) (rest : Bytes) (r : Report Val) (h : Storable32 t)
    (hb : bsonBase env ty = BsonP.rootKind t) (hv : bsonImport env cfg ty old (bdoc t ++ rest) = .throw .std)
    (hr : Imports env cfg pol ty old (bdoc t ++ rest) r) : Failed pol r := by
  have e := imports_eq hr h hb
  rw [hv] at e
  subst e
  unfold Failed
  cases hc : pol.catchExceptions <;> simp [Policy.handle, hc]

/-- C109, a scalar at the top. Without the check it is imported; with it never, not even if nothing follows: the terminator of the document around the scalar is taken for trailing data.
The exception for that runs the destructor of the `DeSerializer`, which throws another one when it does not find the terminator: the program is terminated. Only if the next byte happens
to be NUL the import just fails. -/
theorem C109_scalar (env : Env) (cfg : Cfg) (pol : Policy) (ty : Ty) (old v : Val) (x : BScalar) (rest : Bytes) (r : Report Val) (h : Storable32 (.scalar x))
    (hb : bsonBase env ty = .Value) (hv : bsonImport env cfg ty old (bdoc (.scalar x) ++ rest) = .ok v) (hr : Imports env cfg pol ty old (bdoc (.scalar x) ++ rest) r) :
    (pol.validateNoTrailingData = false → Succeeded v r) ∧
    (pol.validateNoTrailingData = true → (∀ rest', rest ≠ 0x00 :: rest') → r.fate = .terminated) ∧
    (pol.validateNoTrailingData = true → ∀ rest', rest = 0x00 :: rest' → Failed pol r) := by
  have e := imports_eq hr h hb
  rw [hv] at e
  dsimp only at e
  subst e
  unfold Succeeded Failed tailFate
  refine ⟨fun hf => by rw [if_neg (by rw [hf]; simp)], fun hp hn => ?_, fun hp rest' hn => ?_⟩
  · rw [if_pos hp, if_pos (by rfl : BsonP.rootKind (.scalar x) = .Value), if_neg]
    intro hh
    cases rest with
    | nil => cases hh
    | cons b r => simp at hh; exact hn r (by rw [hh])
  · rw [if_pos hp, if_pos (by rfl : BsonP.rootKind (.scalar x) = .Value), hn, if_pos (by rfl)]
    cases hc : pol.catchExceptions <;> simp [Policy.handle, hc]

/-- C109 is false as it stands: importing a string (any string), from the document that the export of that string makes, with the check for trailing data terminates the program. -/
theorem C109_false (env : Env) (cfg : Cfg) (pol : Policy) (s : Bytes) (old : Val) (hs : s.length < 2 ^ 31 - 100) (hp : pol.validateNoTrailingData = true) :
    (bsonExtract env cfg pol .str old (bdoc (.scalar (.str s)))).fate = .terminated := by
  have h := string_import env cfg s old hs
  rw [show bdoc (.scalar (.str s)) = bdoc (.scalar (.str s)) ++ [] by simp] at h ⊢
  refine (C109_scalar env cfg pol .str old (.str s) (.str s) [] _ ⟨trivial, trivial, ?_⟩ rfl h .string).2.1 hp (by simp)
  simp only [bdoc, framed_length, List.length_append, List.length_cons, BScalar.payload, le, List.length_map, List.length_range, List.length_nil]
  omega

/-- An object with text behind it: refused if that is checked, imported otherwise; with a line feed and a tab behind it also if it is checked. -/
example (pol : Policy) (i : IStr) (hi : Stands (bdoc bDoc30 ++ b!"more") i) :
    (pol.validateNoTrailingData = true → Failed pol (bsonStreamExtract bEnv ⟨.Weak, []⟩ pol (.named 0) (.obj [] [.int 0]) i)) ∧
    (pol.validateNoTrailingData = false → Succeeded (.obj [] [.int 7]) (bsonStreamExtract bEnv ⟨.Weak, []⟩ pol (.named 0) (.obj [] [.int 0]) i)) ∧
    Succeeded (.obj [] [.int 7]) (bsonExtract bEnv ⟨.Weak, []⟩ pol (.named 0) (.obj [] [.int 0]) (bdoc bDoc30 ++ b!"\n\t")) := by
  have h : ∀ rest, bsonImport bEnv ⟨.Weak, []⟩ (.named 0) (.obj [] [.int 0]) (bdoc bDoc30 ++ rest) = .ok (.obj [] [.int 7]) := by
    intro rest
    rw [C30_unknown_skipped bEnv ⟨.Weak, []⟩ rfl (.named 0) _ bDoc30 bDoc30_storable rfl _ [],
      bsonImport_doc _ _ _ (prune_storable bsem bEnv _ bDoc30_storable) _ _ rfl]
    rfl
  obtain ⟨h1, h2⟩ := C109_tail_partial bEnv ⟨.Weak, []⟩ pol (.named 0) _ _ bDoc30 _ _ bDoc30_storable rfl (by decide) (h _) (.stream i hi)
  exact ⟨fun hp => h2 hp (fun h => absurd (h 0x6D (by decide)) (by decide)), fun hp => h1 (.inl hp),
    (C109_tail_partial bEnv ⟨.Weak, []⟩ pol (.named 0) _ _ bDoc30 _ _ bDoc30_storable rfl (by decide) (h _) .string).1 (.inr (by simp [Blanks]))⟩

/-- An object in Strict mode with an unknown member: the import fails. -/
example (pol : Policy) (rest : Bytes) : Failed pol (bsonExtract bEnv ⟨.Strict, []⟩ pol (.named 0) (.obj [] [.int 0]) (bdoc bDoc30 ++ rest)) := by
  refine C109_failure bEnv ⟨.Strict, []⟩ pol (.named 0) _ bDoc30 rest _ bDoc30_storable rfl ?_ .string
  rw [bsonImport_doc _ _ _ bDoc30_storable _ _ rfl]
  rfl

end Thors.Props
