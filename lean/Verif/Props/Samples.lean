import Verif.Proofs.JsonImport
/-
Sample documents and types for the non-vacuity examples beside the property theorems. Nothing here is part
of a property.
-/
namespace Thors.Samples
open Thors Spec StrIn

/-- Plain trees: printable ASCII strings without escapes, numbers of one digit. -/
def plainStr (s : JStr) : Bool := decide (s.raw = s.dec) && s.raw.all (fun c => decide (0x20 ≤ c.toNat) && decide (c ≠ 0x22) && decide (c ≠ 0x5C))

def plainScalar : JScalar → Bool
  | .null => true
  | .bool _ => true
  | .int t i => decide (0 ≤ i) && decide (i < 10) && decide (t = [UInt8.ofNat (0x30 + i.toNat)])
  | .frac _ _ => false
  | .str s => plainStr s

def plain : JTree → Bool
  | .scalar x => plainScalar x
  | .arr ts => elems ts
  | .obj ms => members ms
where
  elems : List JTree → Bool
  | [] => true
  | t :: ts => plain t && elems ts
  members : List (JStr × JTree) → Bool
  | [] => true
  | (k, t) :: ms => plainStr k && plain t && members ms

def textScalar : JScalar → Bytes
  | .null => b!"null"
  | .bool b => if b then b!"true" else b!"false"
  | .int t _ => t
  | .frac t _ => t
  | .str s => [0x22] ++ s.raw ++ [0x22]

/-- The text of a tree without any white space. -/
def text : JTree → Bytes
  | .scalar x => textScalar x
  | .arr ts => [0x5B] ++ commas (elems ts) ++ [0x5D]
  | .obj ms => [0x7B] ++ commas (members ms) ++ [0x7D]
where
  elems : List JTree → List Bytes
  | [] => []
  | t :: ts => text t :: elems ts
  members : List (JStr × JTree) → List Bytes
  | [] => []
  | (k, t) :: ms => ([0x22] ++ k.raw ++ [0x22] ++ [0x3A] ++ text t) :: members ms

theorem ws_nil : Ws [] := by simp [Ws]

theorem plain_body {s : JStr} (h : plainStr s = true) : Body codePair s.raw s.dec := by
  simp only [plainStr, Bool.and_eq_true, decide_eq_true_eq] at h
  obtain ⟨e, h⟩ := h
  rw [← e]
  generalize s.raw = r at h
  clear e
  induction r with
  | nil => exact .nil
  | cons c r ih =>
    simp only [List.all_cons, Bool.and_eq_true, decide_eq_true_eq] at h
    exact .basic (.raw c h.1.1.1 h.1.1.2 h.1.2) (ih h.2)

mutual
theorem plain_text : ∀ v : JTree, plain v = true → JText codePair v (text v)
  | .scalar .null, _ => rfl
  | .scalar (.bool b), _ => rfl
  | .scalar (.int t i), h => by
    simp only [plain, plainScalar, Bool.and_eq_true, decide_eq_true_eq] at h
    obtain ⟨⟨h1, h2⟩, h3⟩ := h
    subst h3
    refine ⟨rfl, ?_, ?_⟩
    · have : IntLit [UInt8.ofNat (0x30 + i.toNat)] (i.toNat : Int) := .pos (.one (.mk i.toNat (by omega)))
      rw [Int.toNat_of_nonneg h1] at this
      exact this
    · have : ∀ c : Byte, ¬ litLeadingZero [c] := by
        intro c
        unfold litLeadingZero
        split
        · rename_i e; injection e with _ e; rw [← e]; simp [leadingZero]
        · simp [leadingZero]
      exact this _
  | .scalar (.frac t _), h => by simp [plain, plainScalar] at h
  | .scalar (.str s), h => ⟨plain_body (by simpa [plain, plainScalar] using h), rfl⟩
  | .arr [], _ => ⟨[], ws_nil, rfl⟩
  | .arr (t :: ts), h => ⟨_, plain_elems (t :: ts) (by simpa [plain] using h), rfl⟩
  | .obj [], _ => ⟨[], ws_nil, rfl⟩
  | .obj ((k, t) :: ms), h => ⟨_, plain_members ((k, t) :: ms) (by simpa [plain] using h), rfl⟩
theorem plain_elems : ∀ ts : List JTree, plain.elems ts = true → JText.elems codePair ts (text.elems ts)
  | [], _ => rfl
  | t :: ts, h => by
    simp only [plain.elems, Bool.and_eq_true] at h
    exact ⟨[], text t, [], _, ws_nil, ws_nil, plain_text t h.1, plain_elems ts h.2, by simp [text.elems]⟩
theorem plain_members : ∀ ms : List (JStr × JTree), plain.members ms = true → JText.members codePair ms (text.members ms)
  | [], _ => rfl
  | (k, t) :: ms, h => by
    simp only [plain.members, Bool.and_eq_true] at h
    exact ⟨[], [], [], text t, [], _, ws_nil, ws_nil, ws_nil, ws_nil, plain_body h.1.1, plain_text t h.1.2, plain_members ms h.2,
      by simp [text.members]⟩
end

theorem plain_doc (v : JTree) (h : plain v = true) : JDoc codePair v (text v) :=
  ⟨[], text v, [], ws_nil, ws_nil, plain_text v h, by simp⟩

/-- Importing a plain document, by the specification. -/
theorem import_plain (v : JTree) (h : plain v = true) {t : Bytes} (ht : text v = t) (env : Env) (cfg : Cfg) (conv : Bool) (ty : Ty) (old : Val)
    (hs : v.skippable (jsem conv) = true) : jsonImport env cfg conv ty old t = imp (jsem conv) env cfg v ty old := by
  rw [← ht, jsonImport_doc env cfg (plain_doc v h) ty old (.inl fun _ => hs)]

/-- A key or string without escapes. -/
def jstr (s : Bytes) : JStr := ⟨s, s⟩
/-- A number of one digit. -/
def num (n : Nat) : JTree := .scalar (.int [UInt8.ofNat (0x30 + n)] n)

def int32 : Ty := .int ⟨32, true⟩

/-- Sample program types:
 * 0: `struct Base { int b; }`
 * 1: `struct Point : Base { int x; std::vector<int> y; }` where `y` is called `why` in documents
 * 2: `struct Pair { int first; Point second; }` without renamed members of its own
 * 3: `std::tuple<int, bool>`
 * 4: `enum Colour { Red, Green }`
 * 5: `struct Plain : Base { int x; }`, no renamed members -/
def env : Env where
  defs
    | 0 => .cls ⟨.mk [] [⟨b!"b", b!"b", int32⟩] none, b!"Base", none⟩
    | 1 => .cls ⟨.mk [.mk [] [⟨b!"b", b!"b", int32⟩] none] [⟨b!"x", b!"x", int32⟩, ⟨b!"y", b!"why", .vec int32⟩] none, b!"Point", none⟩
    | 2 => .cls ⟨.mk [] [⟨b!"first", b!"first", int32⟩, ⟨b!"second", b!"second", .named 5⟩] none, b!"Pair", none⟩
    | 3 => .tuple [int32, .bool]
    | 4 => .enum [(0, b!"Red"), (1, b!"Green")]
    | _ => .cls ⟨.mk [.mk [] [⟨b!"b", b!"b", int32⟩] none] [⟨b!"x", b!"x", int32⟩] none, b!"Plain", none⟩
  dflt
    | 0 => .obj [] [.int 0]
    | 1 => .obj [.obj [] [.int 0]] [.int 0, .list []]
    | 2 => .obj [] [.int 0, .obj [.obj [] [.int 0]] [.int 0]]
    | 3 => .list [.int 0, .bool false]
    | 4 => .enum 0
    | _ => .obj [.obj [] [.int 0]] [.int 0]
  registry := [(b!"Base", 0), (b!"Point", 1), (b!"Plain", 5)]
  derives c b := decide (c = b) || decide (b = 0)

end Thors.Samples
