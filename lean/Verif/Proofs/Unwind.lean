import Verif.Model.Unwind
import Verif.Proofs.ExportDefined
/-
Exports that do not come to their end.
-/
namespace Thors
open StrIn

/-! ### The calls before an exception -/

theorem Traversal.toRes_andThen (a b : Traversal) : (a.andThen b).toRes = (do let x ← a.toRes; let y ← b.toRes; return x ++ y) := by
  obtain ⟨ca, sa⟩ := a
  obtain ⟨cb, sb⟩ := b
  cases sa <;> first | rfl | skip
  cases sb <;> rfl

theorem Traversal.toRes_array (size : Res Nat) (body : Traversal) : (Traversal.block size .openArray .closeArray body).toRes = inArray size body.toRes := by
  obtain ⟨cb, sb⟩ := body
  cases size <;> first | rfl | skip
  cases sb <;> rfl

theorem Traversal.toRes_map (size : Res Nat) (body : Traversal) : (Traversal.block size .openMap .closeMap body).toRes = inMap size body.toRes := by
  obtain ⟨cb, sb⟩ := body
  cases size <;> first | rfl | skip
  cases sb <;> rfl

section
variable (env : Env) (marker : Bytes) (sz : Ty → Val → Bool → Res Nat)

mutual
theorem trace_ser : ∀ (v : Val) (ty : Ty), (traceOf env marker sz ty v).toRes = ser env marker sz ty v
  | .int i, ty => by cases ty <;> rfl
  | .flt x, ty => by cases ty <;> rfl
  | .bool b, ty => by cases ty <;> rfl
  | .str s, ty => by cases ty <;> rfl
  | .none, ty => by cases ty <;> rfl
  | .null, ty => by cases ty <;> rfl
  | .some v, ty => by cases ty <;> first | rfl | exact trace_ser v _
  | .ptr v, ty => by cases ty <;> first | rfl | exact trace_ser v _
  | .list vs, ty => by
    cases ty <;> first | rfl | skip
    · unfold traceOf ser
      rw [Traversal.toRes_array, traceList_ser vs]
    · unfold traceOf ser
      rw [Traversal.toRes_array, traceList_ser vs]
    · rename_i i
      unfold traceOf ser
      cases env.defs i <;> first | rfl | skip
      dsimp only
      rw [Traversal.toRes_array, traceTuple_ser vs]
  | .dict kvs, ty => by
    cases ty <;> first | rfl | (unfold traceOf ser; rw [Traversal.toRes_map, traceDict_ser kvs])
  | .enum n, ty => by
    cases ty <;> first | rfl | skip
    rename_i i
    unfold traceOf ser
    cases env.defs i <;> first | rfl | skip
    rename_i table
    dsimp only
    cases enumName table n <;> rfl
  | .obj ps fs, ty => by
    cases ty <;> first | rfl | skip
    rename_i i
    unfold traceOf ser
    cases env.defs i <;> first | rfl | skip
    rename_i c
    obtain ⟨⟨dps, ms, f⟩, name, field⟩ := c
    dsimp only
    rw [Traversal.toRes_map, Traversal.toRes_andThen, Traversal.toRes_andThen, traceOwn_ser fs, traceParents_ser ps]
    cases serOwn env marker sz f (.obj ps fs) ms fs <;> first | rfl | skip
    cases serParents env marker sz dps ps <;> rfl
  | .dyn c (.obj ps fs), ty => by
    cases ty <;> first | rfl | skip
    unfold traceOf ser
    cases env.defs c <;> first | rfl | skip
    rename_i k
    obtain ⟨⟨dps, ms, f⟩, name, field⟩ := k
    dsimp only
    rw [Traversal.toRes_map, Traversal.toRes_andThen, Traversal.toRes_andThen, traceOwn_ser fs, traceParents_ser ps]
    cases serOwn env marker sz f (.obj ps fs) ms fs <;> first | rfl | skip
    cases serParents env marker sz dps ps <;> rfl
  | .alt c (.obj ps fs), ty => by
    cases ty <;> first | rfl | skip
    unfold traceOf ser
    cases env.defs c <;> first | rfl | skip
    rename_i k
    obtain ⟨⟨dps, ms, f⟩, name, field⟩ := k
    dsimp only
    rw [Traversal.toRes_map, Traversal.toRes_andThen, Traversal.toRes_andThen, traceOwn_ser fs, traceParents_ser ps]
    cases serOwn env marker sz f (.obj ps fs) ms fs <;> first | rfl | skip
    cases serParents env marker sz dps ps <;> rfl
  | .dyn _ (.int _), ty | .dyn _ (.flt _), ty | .dyn _ (.bool _), ty | .dyn _ (.str _), ty | .dyn _ .none, ty | .dyn _ .null, ty
  | .dyn _ (.some _), ty | .dyn _ (.ptr _), ty | .dyn _ (.list _), ty | .dyn _ (.dict _), ty | .dyn _ (.enum _), ty | .dyn _ (.dyn _ _), ty | .dyn _ (.alt _ _), ty
  | .alt _ (.int _), ty | .alt _ (.flt _), ty | .alt _ (.bool _), ty | .alt _ (.str _), ty | .alt _ .none, ty | .alt _ .null, ty
  | .alt _ (.some _), ty | .alt _ (.ptr _), ty | .alt _ (.list _), ty | .alt _ (.dict _), ty | .alt _ (.enum _), ty | .alt _ (.dyn _ _), ty | .alt _ (.alt _ _), ty => by
    cases ty <;> rfl
theorem traceList_ser : ∀ (vs : List Val) (t : Ty), (traceList env marker sz t vs).toRes = serList env marker sz t vs
  | [], t => rfl
  | v :: vs, t => by
    unfold traceList serList
    rw [Traversal.toRes_andThen, trace_ser v, traceList_ser vs]
theorem traceTuple_ser : ∀ (vs : List Val) (ts : List Ty), (traceTuple env marker sz ts vs).toRes = serTuple env marker sz ts vs
  | [], [] => rfl
  | v :: vs, t :: ts => by
    unfold traceTuple serTuple
    rw [Traversal.toRes_andThen, trace_ser v, traceTuple_ser vs]
  | [], _ :: _ => rfl
  | _ :: _, [] => rfl
theorem traceDict_ser : ∀ (kvs : List (Bytes × Val)) (t : Ty), (traceDict env marker sz t kvs).toRes = serDict env marker sz t kvs
  | [], t => rfl
  | (k, v) :: kvs, t => by
    unfold traceDict serDict
    rw [Traversal.toRes_andThen, Traversal.toRes_andThen, trace_ser v, traceDict_ser kvs]
    cases ser env marker sz t v <;> rfl
theorem traceOwn_ser : ∀ (vs : List Val) (f : Option (Val → Bytes → Bool)) (self : Val) (ms : List Member),
    (traceOwn env marker sz f self ms vs).toRes = serOwn env marker sz f self ms vs
  | [], f, self, [] => rfl
  | v :: vs, f, self, m :: ms => by
    unfold traceOwn serOwn
    split
    · rw [Traversal.toRes_andThen, Traversal.toRes_andThen, trace_ser v, traceOwn_ser vs]
      cases ser env marker sz m.ty v <;> rfl
    · exact traceOwn_ser vs f self ms
  | [], _, _, _ :: _ => rfl
  | _ :: _, _, _, [] => rfl
theorem traceParents_ser : ∀ (vs : List Val) (ds : List StructDef), (traceParents env marker sz ds vs).toRes = serParents env marker sz ds vs
  | [], [] => rfl
  | .obj ps fs :: vs, .mk dps ms f :: ds => by
    unfold traceParents serParents
    rw [Traversal.toRes_andThen, Traversal.toRes_andThen, traceOwn_ser fs, traceParents_ser ps, traceParents_ser vs]
    cases serOwn env marker sz f (.obj ps fs) ms fs <;> first | rfl | skip
    cases serParents env marker sz dps ps <;> rfl
  | [], .mk _ _ _ :: _ => rfl
  | .int _ :: _, ds | .flt _ :: _, ds | .bool _ :: _, ds | .str _ :: _, ds | .none :: _, ds | .null :: _, ds | .some _ :: _, ds | .ptr _ :: _, ds
  | .list _ :: _, ds | .dict _ :: _, ds | .enum _ :: _, ds | .dyn _ _ :: _, ds | .alt _ _ :: _, ds => by
    cases ds with
    | nil => rfl
    | cons d ds => cases d; rfl
  | .obj _ _ :: _, [] => rfl
end
end

/-! ### Where a traversal is -/

/-- The open blocks, and whether the next call must be that for a value (at the beginning and after a key). -/
structure Place where
  blocks : List Blk
  awaits : Bool
  deriving DecidableEq, Repr

namespace Place

/-- May a value come here? -/
def ready : Place → Bool
  | ⟨.array :: _, w⟩ => !w
  | ⟨_, w⟩ => w

/-- Behind the value. -/
def after (p : Place) : Place := ⟨p.blocks, false⟩

/-- Where a call leads. -/
def move (p : Place) : Cmd → Option Place
  | .openMap _ => if p.ready then some ⟨.map :: p.blocks, false⟩ else none
  | .openArray _ => if p.ready then some ⟨.array :: p.blocks, false⟩ else none
  | .closeMap => match p with
    | ⟨.map :: bs, false⟩ => some ⟨bs, false⟩
    | _ => none
  | .closeArray => match p with
    | ⟨.array :: bs, false⟩ => some ⟨bs, false⟩
    | _ => none
  | .addKey _ => match p with
    | ⟨.map :: bs, false⟩ => some ⟨.map :: bs, true⟩
    | _ => none
  | _ => if p.ready then some p.after else none

/-- Where calls lead. -/
def walk : List Cmd → Place → Option Place
  | [], p => some p
  | c :: cs, p => (p.move c).bind (walk cs)

theorem walk_append (a b : List Cmd) (p : Place) : walk (a ++ b) p = (walk a p).bind (walk b) := by
  induction a generalizing p with
  | nil => rfl
  | cons c a ih =>
    rw [List.cons_append, walk, walk]
    cases p.move c with
    | none => rfl
    | some q => exact ih q

end Place

/-- A traversal leads from `p` to `q` unless it breaks off; then it is somewhere. -/
def Leads (t : Traversal) (p q : Place) : Prop := ∃ r, Place.walk t.cmds p = some r ∧ (t.stop = .done → r = q)

theorem Leads.done {cs : List Cmd} {p q : Place} (h : Place.walk cs p = some q) : Leads ⟨cs, .done⟩ p q := ⟨q, h, fun _ => rfl⟩

theorem Leads.stops {s : Stop} {p q : Place} (h : s ≠ .done) : Leads ⟨[], s⟩ p q := ⟨p, rfl, fun e => absurd e h⟩

theorem Leads.andThen {a b : Traversal} {p q r : Place} (ha : Leads a p q) (hb : Leads b q r) : Leads (a.andThen b) p r := by
  obtain ⟨ca, sa⟩ := a
  obtain ⟨cb, sb⟩ := b
  obtain ⟨x, h1, h2⟩ := ha
  obtain ⟨y, h3, h4⟩ := hb
  dsimp only at h1 h2 h3 h4
  cases sa with
  | done =>
    refine ⟨y, ?_, h4⟩
    show Place.walk (ca ++ cb) p = some y
    rw [Place.walk_append, h1, h2 rfl]
    exact h3
  | threw e => exact ⟨x, h1, fun e => nomatch e⟩
  | undefined => exact ⟨x, h1, fun e => nomatch e⟩

theorem Leads.array {size : Res Nat} {body : Traversal} {p : Place} (hp : p.ready = true) (hb : Leads body ⟨.array :: p.blocks, false⟩ ⟨.array :: p.blocks, false⟩) :
    Leads (.block size .openArray .closeArray body) p p.after := by
  obtain ⟨cb, sb⟩ := body
  obtain ⟨x, h1, h2⟩ := hb
  dsimp only at h1 h2
  cases size with
  | ub => exact .stops (by simp)
  | throw e => exact .stops (by simp)
  | ok n =>
    have hw : Place.walk (.openArray n :: cb) p = some x := by
      rw [Place.walk, Place.move, if_pos hp]
      exact h1
    cases sb with
    | done =>
      refine .done ?_
      rw [Place.walk_append, hw, h2 rfl]
      rfl
    | threw e => exact ⟨x, hw, fun e => nomatch e⟩
    | undefined => exact ⟨x, hw, fun e => nomatch e⟩

theorem Leads.map {size : Res Nat} {body : Traversal} {p : Place} (hp : p.ready = true) (hb : Leads body ⟨.map :: p.blocks, false⟩ ⟨.map :: p.blocks, false⟩) :
    Leads (.block size .openMap .closeMap body) p p.after := by
  obtain ⟨cb, sb⟩ := body
  obtain ⟨x, h1, h2⟩ := hb
  dsimp only at h1 h2
  cases size with
  | ub => exact .stops (by simp)
  | throw e => exact .stops (by simp)
  | ok n =>
    have hw : Place.walk (.openMap n :: cb) p = some x := by
      rw [Place.walk, Place.move, if_pos hp]
      exact h1
    cases sb with
    | done =>
      refine .done ?_
      rw [Place.walk_append, hw, h2 rfl]
      rfl
    | threw e => exact ⟨x, hw, fun e => nomatch e⟩
    | undefined => exact ⟨x, hw, fun e => nomatch e⟩

theorem Leads.key (k : Bytes) (bs : List Blk) : Leads (.call (.addKey k)) ⟨.map :: bs, false⟩ ⟨.map :: bs, true⟩ := .done rfl

theorem Leads.value {c : Cmd} {p : Place} (hp : p.ready = true) (hc : p.move c = if p.ready then some p.after else none) : Leads (.call c) p p.after := by
  refine .done ?_
  rw [Place.walk, hc, if_pos hp]
  rfl

section
variable (env : Env) (marker : Bytes) (sz : Ty → Val → Bool → Res Nat)

mutual
theorem trace_leads : ∀ (v : Val) (ty : Ty) (p : Place), p.ready = true → Leads (traceOf env marker sz ty v) p p.after
  | .int i, ty, p, hp => by cases ty <;> first | exact .stops (by simp) | exact .value hp rfl
  | .flt x, ty, p, hp => by cases ty <;> first | exact .stops (by simp) | exact .value hp rfl
  | .bool b, ty, p, hp => by cases ty <;> first | exact .stops (by simp) | exact .value hp rfl
  | .str s, ty, p, hp => by cases ty <;> first | exact .stops (by simp) | exact .value hp rfl
  | .none, ty, p, hp => by cases ty <;> exact .stops (by simp)
  | .null, ty, p, hp => by cases ty <;> first | exact .stops (by simp) | exact .value hp rfl
  | .some v, ty, p, hp => by cases ty <;> first | exact .stops (by simp) | exact trace_leads v _ p hp
  | .ptr v, ty, p, hp => by cases ty <;> first | exact .stops (by simp) | exact trace_leads v _ p hp
  | .list vs, ty, p, hp => by
    cases ty <;> first | exact .stops (by simp) | exact .array hp (traceList_leads vs _ p.blocks) | skip
    rename_i i
    unfold traceOf
    cases env.defs i <;> first | exact .stops (by simp) | skip
    exact .array hp (traceTuple_leads vs _ p.blocks)
  | .dict kvs, ty, p, hp => by cases ty <;> first | exact .stops (by simp) | exact .map hp (traceDict_leads kvs _ p.blocks)
  | .enum n, ty, p, hp => by
    cases ty <;> first | exact .stops (by simp) | skip
    rename_i i
    unfold traceOf
    cases env.defs i <;> first | exact .stops (by simp) | skip
    rename_i table
    dsimp only
    cases enumName table n
    · exact .stops (by simp)
    · exact .value hp rfl
  | .obj ps fs, ty, p, hp => by
    cases ty <;> first | exact .stops (by simp) | skip
    rename_i i
    unfold traceOf
    cases env.defs i <;> first | exact .stops (by simp) | skip
    rename_i c
    obtain ⟨⟨dps, ms, f⟩, name, field⟩ := c
    refine .map hp (Leads.andThen (.done ?_) ((traceOwn_leads fs f _ ms p.blocks).andThen (traceParents_leads ps dps p.blocks)))
    split <;> rfl
  | .dyn c (.obj ps fs), ty, p, hp => by
    cases ty <;> first | exact .stops (by simp) | skip
    unfold traceOf
    cases env.defs c <;> first | exact .stops (by simp) | skip
    rename_i k
    obtain ⟨⟨dps, ms, f⟩, name, field⟩ := k
    exact .map hp (Leads.andThen (.done rfl) ((traceOwn_leads fs f _ ms p.blocks).andThen (traceParents_leads ps dps p.blocks)))
  | .alt c (.obj ps fs), ty, p, hp => by
    cases ty <;> first | exact .stops (by simp) | skip
    unfold traceOf
    cases env.defs c <;> first | exact .stops (by simp) | skip
    rename_i k
    obtain ⟨⟨dps, ms, f⟩, name, field⟩ := k
    exact .map hp (Leads.andThen (.done rfl) ((traceOwn_leads fs f _ ms p.blocks).andThen (traceParents_leads ps dps p.blocks)))
  | .dyn _ (.int _), ty, p, hp | .dyn _ (.flt _), ty, p, hp | .dyn _ (.bool _), ty, p, hp | .dyn _ (.str _), ty, p, hp | .dyn _ .none, ty, p, hp | .dyn _ .null, ty, p, hp
  | .dyn _ (.some _), ty, p, hp | .dyn _ (.ptr _), ty, p, hp | .dyn _ (.list _), ty, p, hp | .dyn _ (.dict _), ty, p, hp | .dyn _ (.enum _), ty, p, hp | .dyn _ (.dyn _ _), ty, p, hp | .dyn _ (.alt _ _), ty, p, hp
  | .alt _ (.int _), ty, p, hp | .alt _ (.flt _), ty, p, hp | .alt _ (.bool _), ty, p, hp | .alt _ (.str _), ty, p, hp | .alt _ .none, ty, p, hp | .alt _ .null, ty, p, hp
  | .alt _ (.some _), ty, p, hp | .alt _ (.ptr _), ty, p, hp | .alt _ (.list _), ty, p, hp | .alt _ (.dict _), ty, p, hp | .alt _ (.enum _), ty, p, hp | .alt _ (.dyn _ _), ty, p, hp | .alt _ (.alt _ _), ty, p, hp => by
    cases ty <;> exact .stops (by simp)
theorem traceList_leads : ∀ (vs : List Val) (t : Ty) (bs : List Blk), Leads (traceList env marker sz t vs) ⟨.array :: bs, false⟩ ⟨.array :: bs, false⟩
  | [], t, bs => .done rfl
  | v :: vs, t, bs => (trace_leads v t ⟨.array :: bs, false⟩ rfl).andThen (traceList_leads vs t bs)
theorem traceTuple_leads : ∀ (vs : List Val) (ts : List Ty) (bs : List Blk), Leads (traceTuple env marker sz ts vs) ⟨.array :: bs, false⟩ ⟨.array :: bs, false⟩
  | [], [], bs => .done rfl
  | v :: vs, t :: ts, bs => (trace_leads v t ⟨.array :: bs, false⟩ rfl).andThen (traceTuple_leads vs ts bs)
  | [], _ :: _, bs => .stops (by simp)
  | _ :: _, [], bs => .stops (by simp)
theorem traceDict_leads : ∀ (kvs : List (Bytes × Val)) (t : Ty) (bs : List Blk), Leads (traceDict env marker sz t kvs) ⟨.map :: bs, false⟩ ⟨.map :: bs, false⟩
  | [], t, bs => .done rfl
  | (k, v) :: kvs, t, bs => ((Leads.key k bs).andThen (trace_leads v t ⟨.map :: bs, true⟩ rfl)).andThen (traceDict_leads kvs t bs)
theorem traceOwn_leads : ∀ (vs : List Val) (f : Option (Val → Bytes → Bool)) (self : Val) (ms : List Member) (bs : List Blk),
    Leads (traceOwn env marker sz f self ms vs) ⟨.map :: bs, false⟩ ⟨.map :: bs, false⟩
  | [], f, self, [], bs => .done rfl
  | v :: vs, f, self, m :: ms, bs => by
    unfold traceOwn
    split
    · exact ((Leads.key _ bs).andThen (trace_leads v m.ty ⟨.map :: bs, true⟩ rfl)).andThen (traceOwn_leads vs f self ms bs)
    · exact traceOwn_leads vs f self ms bs
  | [], _, _, _ :: _, bs => .stops (by simp)
  | _ :: _, _, _, [], bs => .stops (by simp)
theorem traceParents_leads : ∀ (vs : List Val) (ds : List StructDef) (bs : List Blk), Leads (traceParents env marker sz ds vs) ⟨.map :: bs, false⟩ ⟨.map :: bs, false⟩
  | [], [], bs => .done rfl
  | .obj ps fs :: vs, .mk dps ms f :: ds, bs => ((traceOwn_leads fs f _ ms bs).andThen (traceParents_leads ps dps bs)).andThen (traceParents_leads vs ds bs)
  | [], .mk _ _ _ :: _, bs => .stops (by simp)
  | .int _ :: _, ds, bs | .flt _ :: _, ds, bs | .bool _ :: _, ds, bs | .str _ :: _, ds, bs | .none :: _, ds, bs | .null :: _, ds, bs | .some _ :: _, ds, bs | .ptr _ :: _, ds, bs
  | .list _ :: _, ds, bs | .dict _ :: _, ds, bs | .enum _ :: _, ds, bs | .dyn _ _ :: _, ds, bs | .alt _ _ :: _, ds, bs => by
    cases ds with
    | nil => exact .stops (by simp)
    | cons d ds => cases d; exact .stops (by simp)
  | .obj _ _ :: _, [], bs => .stops (by simp)
end
end

/-! ### Printers that write on a stream -/

theorem Place.move_blocks {p q : Place} {c : Cmd} (h : p.move c = some q) : q.blocks = c.blocks p.blocks := by
  obtain ⟨bs, w⟩ := p
  cases c with
  | openMap n => simp only [Place.move] at h; split at h <;> cases h; rfl
  | openArray n => simp only [Place.move] at h; split at h <;> cases h; rfl
  | closeMap => simp only [Place.move] at h; split at h <;> cases h; rename_i e; cases e; rfl
  | closeArray => simp only [Place.move] at h; split at h <;> cases h; rename_i e; cases e; rfl
  | addKey k => simp only [Place.move] at h; split at h <;> cases h; rename_i e; cases e; rfl
  | _ => simp only [Place.move] at h; split at h <;> cases h; rfl

theorem putAll_failed (ws : List Write) (o : OStream) (h : o.fail = true) : (o.putAll ws).1 = o := by
  induction ws with
  | nil => rfl
  | cons w ws ih =>
    rw [OStream.putAll, OStream.put, if_pos h]
    cases o.throwing && o.again
    · exact ih
    · rfl

theorem putAll_broken : ∀ (ws : List Write) (o o' : OStream), o.putAll ws = (o', true) → o'.fail = true
  | [], o, o', h => by cases h
  | w :: ws, o, o', h => by
    rw [OStream.putAll] at h
    cases hp : o.put (w.bytesIn streamText) with
    | mk o1 b =>
      rw [hp] at h
      cases b with
      | false => exact putAll_broken ws o1 o' h
      | true =>
        cases h
        unfold OStream.put at hp
        split at hp
        · rw [← (Prod.mk.inj hp).1]; assumption
        · split at hp
          · exact nomatch (Prod.mk.inj hp).2
          · rw [← (Prod.mk.inj hp).1]

theorem putAll_quiet : ∀ (ws : List Write) (o : OStream), o.throwing = false → ∃ o', o.putAll ws = (o', false) ∧ o'.throwing = false
  | [], o, h => ⟨o, rfl, h⟩
  | w :: ws, o, h => by
    have : ∃ o1, o.put (w.bytesIn streamText) = (o1, false) ∧ o1.throwing = false := by
      unfold OStream.put
      split
      · exact ⟨o, by rw [h]; rfl, h⟩
      · split
        · exact ⟨_, rfl, h⟩
        · exact ⟨{ o with data := o.data ++ (w.bytesIn streamText).take o.room, room := 0, fail := true }, by rw [h], h⟩
    obtain ⟨o1, h1, h2⟩ := this
    obtain ⟨o2, h3, h4⟩ := putAll_quiet ws o1 h2
    exact ⟨o2, by rw [OStream.putAll, h1]; exact h3, h4⟩

theorem ostream_putAll_append (a b : List Write) (o : OStream) : o.putAll (a ++ b) = match o.putAll a with
    | (o', true) => (o', true)
    | (o', false) => o'.putAll b := by
  induction a generalizing o with
  | nil => rfl
  | cons w a ih =>
    rw [List.cons_append, OStream.putAll, OStream.putAll]
    cases o.put (w.bytesIn streamText) with
    | mk o1 t =>
      cases t
      · exact ih o1
      · rfl

/-- A sequence of calls on any printer. -/
def runCalls {τ : Type} (step : Cmd → τ → Res (List Write × τ)) : List Cmd → τ → Res (List Write × τ)
  | [], t => .ok ([], t)
  | c :: cs, t => do
    let (a, t) ← step c t
    let (b, t) ← runCalls step cs t
    return (a ++ b, t)

theorem runCalls_json (cfg : PrintCfg) (cs : List Cmd) (t : List JPrint.PState) : runCalls (JPrint.step cfg) cs t = JPrint.run cfg cs t := by
  induction cs generalizing t with
  | nil => rfl
  | cons c cs ih => unfold runCalls JPrint.run; simp only [ih]

theorem runCalls_bson (cs : List Cmd) (t : BPrint.St) : runCalls BPrint.step cs t = BPrint.run cs t := by
  induction cs generalizing t with
  | nil => rfl
  | cons c cs ih => unfold runCalls BPrint.run; simp only [ih]

theorem onStream_ok {τ : Type} {step : Cmd → τ → Res (List Write × τ)} {c : Cmd} {t t' : τ} {o o' : OStream} {ws : List Write} (h : step c t = .ok (ws, t'))
    (ho : o.putAll ws = (o', false)) : onStream step c (t, o) = (.fine, t', o') := by
  unfold onStream
  simp only [h, ho]

theorem onStream_broken {τ : Type} {step : Cmd → τ → Res (List Write × τ)} {c : Cmd} {t t' : τ} {o o' : OStream} {ws : List Write} (h : step c t = .ok (ws, t'))
    (ho : o.putAll ws = (o', true)) : onStream step c (t, o) = (.threw .std, t, o') := by
  unfold onStream
  simp only [h, ho]

theorem onStream_ub {τ : Type} {step : Cmd → τ → Res (List Write × τ)} {c : Cmd} {t : τ} {o : OStream} (h : step c t = .ub) : onStream step c (t, o) = (.undefined, t, o) := by
  unfold onStream
  simp only [h]

/-- A printer that takes every call that may come, and closes whatever is open. -/
structure Sturdy {τ : Type} (step : Cmd → τ → Res (List Write × τ)) (Inv : List Blk → τ → Prop) : Prop where
  call : ∀ (p q : Place) (c : Cmd) (t : τ), p.move c = some q → Inv p.blocks t → (step c t = .ub ∧ c.closes = false) ∨ ∃ ws t', step c t = .ok (ws, t') ∧ Inv q.blocks t'
  close : ∀ (b : Blk) (bs : List Blk) (t : τ), Inv (b :: bs) t → ∃ ws t', step b.close t = .ok (ws, t') ∧ Inv bs t'

/-- The end of a traversal that the destructors do not change. -/
def Stop.ended : Stop → Ended
  | .done => .done
  | .threw e => .threw e
  | .undefined => .undefined

section
variable {τ : Type} {step : Cmd → τ → Res (List Write × τ)} {Inv : List Blk → τ → Prop} (S : Sturdy step Inv)
include S

theorem unwind_quiet (e : Exc) (bs : List Blk) (t : τ) (o : OStream) (hi : Inv bs t) (ho : o.throwing = false) :
    ∃ t' o', unwind (onStream step) e bs (t, o) = (.threw e, t', o') ∧ o'.throwing = false := by
  induction bs generalizing t o with
  | nil => exact ⟨t, o, rfl, ho⟩
  | cons b bs ih =>
    obtain ⟨ws, t', h1, h2⟩ := S.close b bs t hi
    obtain ⟨o1, h3, h4⟩ := putAll_quiet ws o ho
    unfold unwind
    rw [onStream_ok h1 h3]
    exact ih t' o1 h2 h4

/-- On a stream without exceptions a traversal ends as the serialiser does, unless a call is undefined. -/
theorem play_quiet (stop : Stop) (cs : List Cmd) (p r : Place) (t : τ) (o : OStream) (hw : Place.walk cs p = some r) (hi : Inv p.blocks t) (ho : o.throwing = false) :
    (play (onStream step) stop cs p.blocks (t, o)).2.2.throwing = false ∧
      ((play (onStream step) stop cs p.blocks (t, o)).1 = stop.ended ∨
        (play (onStream step) stop cs p.blocks (t, o)).1 = .undefined ∧ runCalls step cs t = .ub) := by
  induction cs generalizing p t o with
  | nil =>
    cases stop with
    | done => exact ⟨ho, .inl rfl⟩
    | undefined => exact ⟨ho, .inl rfl⟩
    | threw e =>
      obtain ⟨t', o', h, hq⟩ := unwind_quiet S e p.blocks t o hi ho
      unfold play
      dsimp only
      rw [h]
      exact ⟨hq, .inl rfl⟩
  | cons c cs ih =>
    rw [Place.walk] at hw
    cases hm : p.move c with
    | none => rw [hm] at hw; cases hw
    | some q =>
      rw [hm] at hw
      have hb := Place.move_blocks hm
      unfold play runCalls
      rcases S.call p q c t hm hi with ⟨hu, -⟩ | ⟨ws, t', h1, h2⟩
      · rw [onStream_ub hu, hu]
        exact ⟨ho, .inr ⟨rfl, rfl⟩⟩
      · obtain ⟨o1, h3, h4⟩ := putAll_quiet ws o ho
        rw [onStream_ok h1 h3, h1]
        dsimp only
        rw [← hb]
        obtain ⟨k1, k2⟩ := ih q t' o1 hw h2 h4
        refine ⟨k1, k2.imp id fun k => ⟨k.1, ?_⟩⟩
        rw [Res.ok_bind]
        dsimp only
        rw [k.2]
        rfl

theorem unwind_failed (e : Exc) (bs : List Blk) (t : τ) (o : OStream) (hi : Inv bs t) (ho : o.fail = true) :
    ∃ E t', unwind (onStream step) e bs (t, o) = (E, t', o) ∧ (E = .threw e ∨ E = .terminated) := by
  induction bs generalizing t with
  | nil => exact ⟨_, t, rfl, .inl rfl⟩
  | cons b bs ih =>
    obtain ⟨ws, t', h1, h2⟩ := S.close b bs t hi
    have h3 := putAll_failed ws o ho
    unfold unwind
    cases hp : o.putAll ws with
    | mk o1 x =>
      rw [hp] at h3
      dsimp only at h3
      subst h3
      cases x with
      | true => rw [onStream_broken h1 hp]; exact ⟨_, t, rfl, .inr rfl⟩
      | false => rw [onStream_ok h1 hp]; exact ih t' h2

/-- A traversal to its end, on any stream. -/
theorem play_whole (cs : List Cmd) (p r : Place) (t t' : τ) (ws : List Write) (o o' : OStream) (x : Bool) (hw : Place.walk cs p = some r) (hi : Inv p.blocks t)
    (hr : runCalls step cs t = .ok (ws, t')) (ho : o.putAll ws = (o', x)) :
    (x = false → play (onStream step) .done cs p.blocks (t, o) = (.done, t', o')) ∧
      (x = true → ∃ E t'', play (onStream step) .done cs p.blocks (t, o) = (E, t'', o') ∧ (E = .threw .std ∨ E = .terminated)) := by
  induction cs generalizing p t o ws with
  | nil =>
    cases hr
    cases ho
    exact ⟨fun _ => rfl, fun h => nomatch h⟩
  | cons c cs ih =>
    rw [Place.walk] at hw
    cases hm : p.move c with
    | none => rw [hm] at hw; cases hw
    | some q =>
      rw [hm] at hw
      have hb := Place.move_blocks hm
      unfold runCalls at hr
      obtain ⟨⟨a, t1⟩, e1, hr⟩ := Res.bind_eq_ok.1 hr
      obtain ⟨⟨b, t2⟩, e2, hr⟩ := Res.bind_eq_ok.1 hr
      cases hr
      have hi1 : Inv q.blocks t1 := by
        rcases S.call p q c t hm hi with ⟨hu, -⟩ | ⟨ws, t', h1, h2⟩
        · rw [hu] at e1; cases e1
        · rw [h1] at e1; cases e1; exact h2
      rw [ostream_putAll_append] at ho
      unfold play
      cases hp : o.putAll a with
      | mk o1 y =>
        rw [hp] at ho
        cases y with
        | false =>
          rw [onStream_ok e1 hp]
          dsimp only at ho ⊢
          rw [← hb]
          exact ih q t1 b o1 hw hi1 e2 ho
        | true =>
          cases ho
          refine ⟨fun h => (nomatch h), fun _ => ?_⟩
          rw [onStream_broken e1 hp]
          dsimp only
          split
          · exact ⟨_, t, rfl, .inr rfl⟩
          · exact unwind_failed S .std p.blocks t _ hi (putAll_broken a o _ hp)

end

/-! ### JSON -/

namespace JPrint

/-- The kind of a block. -/
def kindOf : Blk → Kind
  | .map => .Map
  | .array => .Array

/-- The stack of the printer for the open blocks: the line of the opening bracket fits the indentation buffer. -/
def Open (cfg : PrintCfg) : List Blk → List PState → Prop
  | [], ss => ∃ st, ss = [st] ∧ st.f1 = .Value
  | b :: bs, ss => ∃ st ss', ss = st :: ss' ∧ st.f1 = kindOf b ∧ (cfg.layout = .Stream ∨ width cfg bs.length ≤ 4003) ∧ Open cfg bs ss'

theorem Open.length {cfg : PrintCfg} : ∀ {bs : List Blk} {ss : List PState}, Open cfg bs ss → ss.length = bs.length + 1
  | [], _, ⟨_, h, _⟩ => by rw [h]; rfl
  | b :: bs, _, ⟨_, ss', h, _, _, hr⟩ => by rw [h, List.length_cons, hr.length]; rfl

/-- The top may change as long as its kind does not. -/
theorem Open.top {cfg : PrintCfg} {bs : List Blk} {st st' : PState} {ss : List PState} (h : Open cfg bs (st :: ss)) (hk : st'.f1 = st.f1) : Open cfg bs (st' :: ss) := by
  cases bs with
  | nil =>
    obtain ⟨x, h1, h2⟩ := h
    cases h1
    exact ⟨st', rfl, hk.trans h2⟩
  | cons b bs =>
    obtain ⟨x, y, h1, h2, h3, h4⟩ := h
    cases h1
    exact ⟨st', ss, rfl, hk.trans h2, h3, h4⟩

theorem Open.cons {cfg : PrintCfg} {bs : List Blk} {ss : List PState} (h : Open cfg bs ss) : ∃ st ss', ss = st :: ss' ∧ ss'.length = bs.length := by
  have := h.length
  cases ss with
  | nil => cases this
  | cons st ss' => exact ⟨st, ss', rfl, by simpa using this⟩

theorem close_suffix {cfg : PrintCfg} {n : Nat} (h : cfg.layout = .Stream ∨ width cfg n ≤ 4003) (i : Bool) (hi : i = true → cfg.layout ≠ .Stream) (b : Byte) :
    ∃ w, indentSuffix cfg n i b = .ok w := by
  unfold indentSuffix
  cases i with
  | false => exact ⟨_, rfl⟩
  | true =>
    rcases h with h | h
    · exact absurd h (hi rfl)
    · rw [if_neg (by simp)]
      dsimp only
      rw [if_pos h]
      exact ⟨_, rfl⟩

theorem close_open {cfg : PrintCfg} (b : Blk) (bs : List Blk) (ss : List PState) (h : Open cfg (b :: bs) ss) :
    ∃ w ss', step cfg b.close ss = .ok (w, ss') ∧ Open cfg bs ss' := by
  obtain ⟨st, ss', rfl, hk, hw, hr⟩ := h
  obtain ⟨st', ss'', rfl, hl⟩ := hr.cons
  cases b with
  | map =>
    obtain ⟨w, h1⟩ := close_suffix (n := ss''.length) (hl ▸ hw) (cfg.layout ≠ .Stream) (by simp) 0x7D
    refine ⟨w, { st' with f0 := st'.f0 + 1 } :: ss'', ?_, hr.top rfl⟩
    unfold Blk.close step
    dsimp only
    rw [if_neg (by simp [hk, kindOf]), h1]
    rfl
  | array =>
    obtain ⟨w, h1⟩ := close_suffix (n := ss''.length) (hl ▸ hw) (cfg.layout ≠ .Stream ∧ st.f2 = false) (by simp +contextual) 0x5D
    refine ⟨w, { st' with f0 := st'.f0 + 1 } :: ss'', ?_, hr.top rfl⟩
    unfold Blk.close step
    dsimp only
    rw [if_neg (by simp [hk, kindOf]), h1]
    rfl

theorem open_suffix (cfg : PrintCfg) (n : Nat) (b : Byte) :
    (indentSuffix cfg n (cfg.layout ≠ .Stream) b = .ub ∧ cfg.layout ≠ .Stream) ∨
      ((cfg.layout = .Stream ∨ width cfg n ≤ 4003) ∧ ∃ w, indentSuffix cfg n (cfg.layout ≠ .Stream) b = .ok w) := by
  unfold indentSuffix
  by_cases h : cfg.layout = .Stream
  · exact .inr ⟨.inl h, by rw [if_pos (by simp [h])]; exact ⟨_, rfl⟩⟩
  · rw [if_neg (by simp [h])]
    dsimp only
    split
    · exact .inr ⟨.inr ‹_›, _, rfl⟩
    · exact .inl ⟨rfl, h⟩

/-- What may come is undefined only when the line is too long. -/
theorem call_open (cfg : PrintCfg) (p q : Place) (c : Cmd) (ss : List PState) (hm : p.move c = some q) (h : Open cfg p.blocks ss) :
    (step cfg c ss = .ub ∧ c.closes = false ∧ cfg.layout ≠ .Stream) ∨ ∃ w ss', step cfg c ss = .ok (w, ss') ∧ Open cfg q.blocks ss' := by
  have hb := Place.move_blocks hm
  obtain ⟨st, ss', rfl, hl⟩ := h.cons
  rw [hb]
  cases c with
  | openMap n =>
    rcases open_suffix cfg ss'.length 0x7B with ⟨hu, hs⟩ | ⟨hw, w, hk⟩
    · refine .inl ⟨?_, rfl, hs⟩
      unfold step
      dsimp only
      rw [hu]
      rfl
    · refine .inr ⟨separator st false false ++ w, ⟨0, .Map, false⟩ :: st :: ss', ?_, ⟨_, _, rfl, rfl, hl ▸ hw, h⟩⟩
      · unfold step
        dsimp only
        rw [hk]
        rfl
  | openArray n =>
    rcases open_suffix cfg ss'.length 0x5B with ⟨hu, hs⟩ | ⟨hw, w, hk⟩
    · refine .inl ⟨?_, rfl, hs⟩
      unfold step
      dsimp only
      rw [hu]
      rfl
    · refine .inr ⟨separator st false false ++ w, ⟨0, .Array, false⟩ :: st :: ss', ?_, ⟨_, _, rfl, rfl, hl ▸ hw, h⟩⟩
      · unfold step
        dsimp only
        rw [hk]
        rfl
  | closeMap =>
    obtain ⟨bs, a⟩ := p
    simp only [Place.move] at hm
    split at hm <;> cases hm
    rename_i e
    cases e
    exact .inr (close_open .map _ _ h)
  | closeArray =>
    obtain ⟨bs, a⟩ := p
    simp only [Place.move] at hm
    split at hm <;> cases hm
    rename_i e
    cases e
    exact .inr (close_open .array _ _ h)
  | addKey k =>
    obtain ⟨bs, a⟩ := p
    simp only [Place.move] at hm
    split at hm <;> cases hm
    rename_i bs' e
    cases e
    have hk : st.f1 = .Map := by
      obtain ⟨x, y, h1, h2, -⟩ := h
      cases h1
      exact h2
    unfold step
    dsimp only
    rw [if_neg (by simp [hk])]
    unfold indentPlain
    by_cases hs : cfg.layout = .Stream
    · rw [if_pos (by simp [hs])]
      exact .inr ⟨_, _, rfl, h⟩
    · rw [if_neg (by simp [hs])]
      dsimp only
      split
      · exact .inr ⟨_, _, rfl, h⟩
      · exact .inl ⟨rfl, rfl, hs⟩
  | addInt k i => exact .inr ⟨_, _, rfl, h.top rfl⟩
  | addFlt k i => exact .inr ⟨_, _, rfl, h.top rfl⟩
  | addBool k => exact .inr ⟨_, _, rfl, h.top rfl⟩
  | addStr k => exact .inr ⟨_, _, rfl, h.top rfl⟩
  | addNull => exact .inr ⟨_, _, rfl, h.top rfl⟩

theorem sturdy (cfg : PrintCfg) : Sturdy (step cfg) (Open cfg) where
  call p q c t hm hi := (call_open cfg p q c t hm hi).imp (fun h => ⟨h.1, h.2.1⟩) id
  close := close_open

theorem open_init (cfg : PrintCfg) : Open cfg [] init := ⟨_, rfl, rfl⟩

/-- Calls that may come are never refused, and undefined only with indentation. -/
theorem run_open (cfg : PrintCfg) (cs : List Cmd) (p r : Place) (ss : List PState) (hw : Place.walk cs p = some r) (h : Open cfg p.blocks ss) :
    (run cfg cs ss = .ub ∧ cfg.layout ≠ .Stream) ∨ ∃ w ss', run cfg cs ss = .ok (w, ss') ∧ Open cfg r.blocks ss' := by
  induction cs generalizing p ss with
  | nil => cases hw; exact .inr ⟨_, _, rfl, h⟩
  | cons c cs ih =>
    rw [Place.walk] at hw
    cases hm : p.move c with
    | none => rw [hm] at hw; cases hw
    | some q =>
      rw [hm] at hw
      unfold run
      rcases call_open cfg p q c ss hm h with ⟨hu, -, hs⟩ | ⟨w, ss', h1, h2⟩
      · exact .inl ⟨by rw [hu]; rfl, hs⟩
      · rw [h1]
        rcases ih q ss' hw h2 with ⟨hu, hs⟩ | ⟨w', ss2, h3, h4⟩
        · exact .inl ⟨by rw [Res.ok_bind]; dsimp only; rw [hu]; rfl, hs⟩
        · refine .inr ⟨w ++ w', ss2, ?_, h4⟩
          rw [Res.ok_bind]
          dsimp only
          rw [h3]
          rfl

end JPrint

/-! ### BSON -/

namespace BPrint

/-- The kind of a block. -/
def contOf : Blk → BCont
  | .map => .Map
  | .array => .Array

/-- The stacks of the printer for the open blocks. -/
def Open (bs : List Blk) (s : St) : Prop := s.conts = bs.map contOf ∧ Counted s

theorem writeKey_open {bs : List Blk} {s : St} (h : Open bs s) (t : Byte) (n : Option Nat) : ∃ w s', writeKey t n s = .ok (w, s') ∧ Open bs s' := by
  have := writeKey_safe h.2 t n
  cases hk : writeKey t n s with
  | ub => rw [hk] at this; exact absurd rfl this.ne_ub
  | throw e =>
    exfalso
    unfold writeKey at hk
    split at hk
    · split at hk <;> cases hk
    · cases hk
    · cases n <;> cases hk
  | ok x =>
    rw [hk] at this
    have hbe : Beside s x.2 := this
    exact ⟨x.1, x.2, rfl, hbe.1.trans h.1, hbe.counted h.2⟩

theorem element_open {bs : List Blk} {s : St} (h : Open bs s) (t : Byte) (b : List Write) : ∃ w s', element t b s = .ok (w, s') ∧ Open bs s' := by
  obtain ⟨w, s', h1, h2⟩ := writeKey_open h t (some (bytesOf b).length)
  exact ⟨w ++ b, s', by unfold element; rw [h1]; rfl, h2⟩

theorem close_open (b : Blk) (bs : List Blk) (s : St) (h : Open (b :: bs) s) : ∃ w s', step b.close s = .ok (w, s') ∧ Open bs s' := by
  obtain ⟨h1, h2⟩ := h
  cases b with
  | map =>
    refine ⟨[.chars [0x00]], { s with conts := bs.map contOf }, ?_, rfl, ?_⟩
    · unfold Blk.close step
      dsimp only
      rw [h1]
      rfl
    · unfold Counted at h2 ⊢
      rw [h1] at h2
      simpa [contOf] using h2
  | array =>
    unfold Counted at h2
    rw [h1] at h2
    cases hi : s.idx with
    | nil => rw [hi] at h2; simp [contOf] at h2
    | cons i is =>
      refine ⟨[.chars [0x00]], { s with conts := bs.map contOf, idx := is }, ?_, rfl, ?_⟩
      · unfold Blk.close step
        dsimp only
        rw [h1]
        dsimp only [List.map]
        rw [hi]
        rfl
      · rw [hi] at h2
        unfold Counted
        simpa [contOf] using h2

theorem call_open (p q : Place) (c : Cmd) (s : St) (hm : p.move c = some q) (h : Open p.blocks s) : ∃ w s', step c s = .ok (w, s') ∧ Open q.blocks s' := by
  have hb := Place.move_blocks hm
  rw [hb]
  cases c with
  | openMap n =>
    obtain ⟨w, s', h1, h2, h3⟩ := writeKey_open h 0x03 none
    refine ⟨w ++ [.chars (leBytes 4 n)], { s' with conts := .Map :: s'.conts }, by unfold step; dsimp only; rw [h1]; rfl, ?_, ?_⟩
    · show BCont.Map :: s'.conts = _
      rw [h2]; rfl
    · unfold Counted at h3 ⊢
      simpa using h3
  | openArray n =>
    obtain ⟨w, s', h1, h2, h3⟩ := writeKey_open h 0x04 none
    refine ⟨w ++ [.chars (leBytes 4 n)], { s' with conts := .Array :: s'.conts, idx := 0 :: s'.idx }, by unfold step; dsimp only; rw [h1]; rfl, ?_, ?_⟩
    · show BCont.Array :: s'.conts = _
      rw [h2]; rfl
    · unfold Counted at h3 ⊢
      simpa using h3
  | closeMap =>
    obtain ⟨bs, a⟩ := p
    simp only [Place.move] at hm
    split at hm <;> cases hm
    rename_i e
    cases e
    exact close_open .map _ _ h
  | closeArray =>
    obtain ⟨bs, a⟩ := p
    simp only [Place.move] at hm
    split at hm <;> cases hm
    rename_i e
    cases e
    exact close_open .array _ _ h
  | addKey k =>
    obtain ⟨bs, a⟩ := p
    simp only [Place.move] at hm
    split at hm <;> cases hm
    rename_i bs' e
    cases e
    refine ⟨[], { s with key := k }, ?_, h⟩
    unfold step
    dsimp only
    rw [h.1]
    rfl
  | addInt k i => exact element_open h _ _
  | addFlt k i => exact element_open h _ _
  | addBool k => exact element_open h _ _
  | addStr k => exact element_open h _ _
  | addNull => exact element_open h _ _

theorem sturdy : Sturdy step Open where
  call p q c t hm hi := .inr (call_open p q c t hm hi)
  close := close_open

theorem open_init : Open [] init := ⟨rfl, rfl⟩

/-- Calls that may come are never refused. -/
theorem run_open (cs : List Cmd) (p r : Place) (s : St) (hw : Place.walk cs p = some r) (h : Open p.blocks s) :
    ∃ w s', run cs s = .ok (w, s') ∧ Open r.blocks s' := by
  induction cs generalizing p s with
  | nil => cases hw; exact ⟨_, _, rfl, h⟩
  | cons c cs ih =>
    rw [Place.walk] at hw
    cases hm : p.move c with
    | none => rw [hm] at hw; cases hw
    | some q =>
      rw [hm] at hw
      obtain ⟨w, s1, h1, h2⟩ := call_open p q c s hm h
      obtain ⟨w', s2, h3, h4⟩ := ih q s1 hw h2
      refine ⟨w ++ w', s2, ?_, h4⟩
      unfold run
      rw [h1, Res.ok_bind]
      dsimp only
      rw [h3]
      rfl

end BPrint

end Thors
