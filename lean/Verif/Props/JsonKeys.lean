import Verif.Props.BsonKeys
/-
C132: the keys of a map cannot add members to a JSON document.
-/
namespace Thors.Props
open Thors Thors.Spec StrIn

private theorem fresh132 (env : Env) (hg : GoodTypes env) : Fresh env intMap (intEntries []) := by
  simpa [intMap, intEntries, Ty.default] using default_fresh env hg intMap

private theorem nesting132 : ∀ kvs : List (Bytes × Int), nesting.members (doc131 kvs) = 0
  | [] => by simp [doc131, nesting.members]
  | (k, i) :: kvs => by
    have := nesting132 kvs
    simp only [doc131, List.map_cons, nesting.members, nesting] at *
    omega

/-- C132 for keys without quotes, backslashes and control characters: the reader finds exactly the entries of the map, in every layout. -/
theorem C132_partial (env : Env) (cfg : PrintCfg) (hS : SolidTypes env cfg.marker) (hg : GoodTypes env) (hf : FitsIndent cfg 1) (kvs : List (Bytes × Int)) (h : MapOf kvs)
    (h0 : ∀ e ∈ kvs, cleanKey e.1) :
    ∃ t, jsonExport env cfg intMap (intEntries kvs) = .ok t ∧ jsonImport env ⟨.Weak, cfg.marker⟩ true intMap (intEntries []) t = .ok (intEntries kvs) := by
  obtain ⟨hs, -⟩ := back_val env cfg.marker hg hS _ intMap false (by simp [intMap, Solid]) (by simp) (hasType131 env kvs h)
  obtain ⟨t, p, e, i, -⟩ := C23_round_trip_partial env cfg ⟨.Weak, cfg.marker⟩ intMap _ (intEntries []) _ [] hg hS.filters rfl (by simp) (docOf131 env cfg.marker kvs) hs
    (fresh132 env hg) (by simp only [AllKeys]; exact keys131 _ kvs h0) (by simp only [AllScalars]; exact scalars131 _ (fun _ => trivial) kvs)
    (by simpa [nesting, nesting132] using hf) ⟨fun _ _ _ => trivial, fun _ _ _ => trivial⟩
  refine ⟨t, e, ?_⟩
  rw [List.append_nil] at i
  simp [jsonImport, i]

/-- C132 is false: who chooses one key chooses other members as well. For all names `a < b` and all numbers `m` and `n`, in every layout: the map with the one entry
`a":m,"b` ↦ `n` is exported as a well formed document, and the reader finds the entries `a` ↦ `m` and `b` ↦ `n`. -/
theorem C132_false (env : Env) (cfg : PrintCfg) (icfg : Cfg) (conv : Bool) (hf : FitsIndent cfg 1) (a b : Bytes) (m n : Int)
    (hm : -2 ^ 31 ≤ m ∧ m < 2 ^ 31) (hn : -2 ^ 31 ≤ n ∧ n < 2 ^ 31) (hab : keyLt a b = true) (ha : cleanKey a) (hb : cleanKey b) :
    ∃ t, jsonExport env cfg intMap (intEntries [(a ++ b!"\":" ++ intText m ++ b!",\"" ++ b, n)]) = .ok t ∧
      jsonImport env icfg conv intMap (intEntries []) t = .ok (intEntries [(a, m), (b, n)]) := by
  obtain ⟨w, tv, ws, ss, hw, ht, -, -, e⟩ := export_doc env cfg intMap (intEntries [(a ++ b!"\":" ++ intText m ++ b!",\"" ++ b, n)]) _ (docOf131 env cfg.marker _) hf
  refine ⟨_, e, ?_⟩
  obtain ⟨ps, ⟨w1, w3, tx, w4, ps', h1, h3, h4, hx, hps, rfl⟩, rfl⟩ := ht
  rw [show ps' = [] from hps]
  have himp : imp (jsem conv) env icfg (.obj [(⟨a, a⟩, .scalar (.int (intText m) m)), (⟨b, b⟩, .scalar (.int (intText n) n))]) intMap (intEntries []) = .ok (intEntries [(a, m), (b, n)]) := by
    have : ∀ k, (jsem conv).key ⟨k, k⟩ = k := by simp [jsem, JStr.val]
    simp [imp, imp.members, impObj, impDict, impScalar, this, intMap, dictSet, intEntries, dictGet]
    simp [jsem, InRange]
    have hm' : -2147483648 ≤ m ∧ m < 2147483648 := hm
    have hn' : -2147483648 ≤ n ∧ n < 2147483648 := hn
    have h1 : a ≠ b := Thors.keyLt_ne hab
    have h2 : keyLt b a = false := Thors.keyLt_asymm a b hab
    simp [hm', hn', h1, h2]
  refine (jsonImport_doc env icfg (v := .obj [(⟨a, a⟩, .scalar (.int (intText m) m)), (⟨b, b⟩, .scalar (.int (intText n) n))]) ?_ _ _ (.inr (by rw [himp]; intro h; cases h))).trans himp
  rw [PText] at hx
  subst hx
  refine ⟨w, _, [], hw, by simp [Ws], ⟨[w1 ++ [0x22] ++ a ++ [0x22] ++ [] ++ [0x3A] ++ [] ++ intText m ++ [], [] ++ [0x22] ++ b ++ [0x22] ++ [] ++ [0x3A] ++ w3 ++ intText n ++ w4],
    ⟨w1, [], [], intText m, [], _, h1, by simp [Ws], by simp [Ws], by simp [Ws], cleanKey_body codePair a ha, ⟨rfl, intText_lit m, intText_noLeadingZero m⟩,
      ⟨[], [], w3, intText n, w4, [], by simp [Ws], by simp [Ws], h3, h4, cleanKey_body codePair b hb, ⟨rfl, intText_lit n, intText_noLeadingZero n⟩, rfl, rfl⟩, rfl⟩, rfl⟩, ?_⟩
  simp [commas, atomText]

/-- non-vacuity: the keys `name` and `role` in the default layout; the key `name":7,"role`. -/
example : ∃ t, jsonExport env104 {} intMap (intEntries [(b!"name", 7), (b!"role", -1)]) = .ok t ∧
    jsonImport env104 ⟨.Weak, []⟩ true intMap (intEntries []) t = .ok (intEntries [(b!"name", 7), (b!"role", -1)]) :=
  C132_partial env104 {} env104_solid env104_good (fits_default [] false 1 (by decide)) _ ⟨by decide, by decide⟩ (by decide)
example : ∃ t, jsonExport env104 {} intMap (intEntries [(b!"name\":7,\"role", 1)]) = .ok t ∧
    jsonImport env104 ⟨.Weak, []⟩ true intMap (intEntries []) t = .ok (intEntries [(b!"name", 7), (b!"role", 1)]) := by
  have e : b!"name\":7,\"role" = b!"name" ++ b!"\":" ++ intText 7 ++ b!",\"" ++ b!"role" := by decide +kernel
  rw [e]
  exact C132_false env104 {} ⟨.Weak, []⟩ true (fits_default [] false 1 (by decide)) b!"name" b!"role" 7 1 (by decide) (by decide) (by decide) (by decide) (by decide)

end Thors.Props
