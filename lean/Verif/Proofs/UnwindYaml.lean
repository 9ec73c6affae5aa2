import Verif.Proofs.Unwind
import Verif.Spec.YamlEvents
/-
YAML exports that do not come to their end.
-/
namespace Thors
open StrIn Spec

/-! ### Histories of events -/

theorem expects_snoc (h : List YEv) (e : YEv) : expects (h ++ [e]) = (expects h).bind (expect1 · e) := by
  unfold expects
  rw [List.foldl_append]
  rfl

theorem legal_snoc {h : List YEv} {e : YEv} (hl : Legal (h ++ [e])) : Legal h := by
  intro hn
  refine hl ?_
  rw [expects_snoc, hn]
  rfl

theorem emitter_takes {refuse : List YEv → Bool} (em : Emitter refuse) {h : List YEv} {a : List Await} (he : expects h = some a) : refuse h = false :=
  em.takes h (by unfold Legal; rw [he]; exact fun x => nomatch x)

/-- The event of a call. -/
def eventOf : Cmd → YEv
  | .openMap _ => .mapStart
  | .closeMap => .mapEnd
  | .openArray _ => .seqStart
  | .closeArray => .seqEnd
  | c => .scalar ((yamlText c).getD [])

/-- What is awaited at a place of a traversal. -/
def awaiting : List Blk → Bool → List Await
  | [], w => (if w then [.node] else []) ++ [.docEnd, .docs]
  | .array :: bs, _ => .items :: awaiting bs false
  | .map :: bs, w => (if w then [.node] else []) ++ .keys :: awaiting bs false

theorem expect_move {p q : Place} {c : Cmd} (hm : p.move c = some q) : expect1 (awaiting p.blocks p.awaits) (eventOf c) = some (awaiting q.blocks q.awaits) := by
  obtain ⟨bs, w⟩ := p
  have node : ∀ e, Place.ready ⟨bs, w⟩ = true → expect1 (awaiting bs w) e = if (bs.head? = some .array ∧ e = .seqEnd) then expect1 (awaiting bs w) e else
      nodeEvent e (awaiting bs false) := by
    intro e hr
    cases bs with
    | nil =>
      cases w with
      | false => cases hr
      | true =>
        rw [if_neg (by simp)]
        rfl
    | cons b bs =>
      cases b with
      | map =>
        cases w with
        | false => cases hr
        | true =>
          rw [if_neg (by simp)]
          rfl
      | array =>
        by_cases he : e = .seqEnd
        · rw [if_pos ⟨rfl, he⟩]
        · rw [if_neg (fun x => he x.2)]
          cases e <;> first | rfl | exact absurd rfl he
  have value : ∀ t, Place.ready ⟨bs, w⟩ = true → expect1 (awaiting bs w) (.scalar t) = some (awaiting bs false) := by
    intro t hr
    rw [node _ hr, if_neg (fun x => nomatch x.2)]
    rfl
  cases c with
  | openMap n =>
    simp only [Place.move] at hm
    split at hm <;> cases hm
    rename_i hr
    rw [show eventOf (.openMap n) = .mapStart from rfl, node _ hr, if_neg (fun x => nomatch x.2)]
    rfl
  | openArray n =>
    simp only [Place.move] at hm
    split at hm <;> cases hm
    rename_i hr
    rw [show eventOf (.openArray n) = .seqStart from rfl, node _ hr, if_neg (fun x => nomatch x.2)]
    rfl
  | closeMap =>
    simp only [Place.move] at hm
    split at hm <;> cases hm
    rename_i e
    cases e
    rfl
  | closeArray =>
    simp only [Place.move] at hm
    split at hm <;> cases hm
    rename_i e
    cases e
    rfl
  | addKey k =>
    simp only [Place.move] at hm
    split at hm <;> cases hm
    rename_i e
    cases e
    rfl
  | _ =>
    simp only [Place.move] at hm
    split at hm <;> cases hm
    rename_i hr
    exact value _ hr

/-- Only a key makes a value awaited, in a map. -/
theorem move_awaits {p q : Place} {c : Cmd} (hm : p.move c = some q) : (q.awaits = true ↔ ∃ k, c = .addKey k) ∧ (q.awaits = true → ∃ bs, q.blocks = .map :: bs) := by
  obtain ⟨bs, w⟩ := p
  cases c <;> simp only [Place.move] at hm <;> split at hm <;> cases hm <;> simp [Place.after]

theorem walk_awaits : ∀ (cs : List Cmd) (p r : Place), Place.walk cs p = some r → (cs = [] ∧ r = p) ∨
    ((r.awaits = true ↔ ∃ k, cs.getLast? = some (.addKey k)) ∧ (r.awaits = true → ∃ bs, r.blocks = .map :: bs))
  | [], p, r, h => by cases h; exact .inl ⟨rfl, rfl⟩
  | c :: cs, p, r, h => by
    rw [Place.walk] at h
    cases hm : p.move c with
    | none => rw [hm] at h; cases h
    | some q =>
      rw [hm] at h
      refine .inr ?_
      rcases walk_awaits cs q r h with ⟨rfl, rfl⟩ | h1
      · have := move_awaits hm
        refine ⟨this.1.trans ?_, this.2⟩
        simp
      · refine ⟨h1.1.trans ?_, h1.2⟩
        cases cs with
        | nil =>
          cases h
          have := move_awaits hm
          rw [← h1.1, this.1]
          simp
        | cons c' cs => rw [List.getLast?_cons_cons]

theorem walk_start {cs : List Cmd} {r : Place} (h : Place.walk cs ⟨[], true⟩ = some r) : (r.awaits = true ↔ AwaitsValue cs) ∧
    (r.awaits = true → r.blocks = [] ∨ ∃ bs, r.blocks = .map :: bs) := by
  rcases walk_awaits cs _ r h with ⟨rfl, rfl⟩ | ⟨h1, h2⟩
  · exact ⟨⟨fun _ => .inl rfl, fun _ => rfl⟩, fun _ => .inl rfl⟩
  · refine ⟨h1.trans ⟨.inr, ?_⟩, fun h => .inr (h2 h)⟩
    rintro (rfl | h3)
    · cases h
      exact h1.1 rfl
    · exact h3

/-! ### Calls on the printer -/

/-- The vector `state` of the printer for the open blocks. -/
def YKinds (bs : List Blk) (s : YOut) : Prop := s.state.map Prod.snd = bs.map JPrint.kindOf ++ [.Value]

theorem YKinds.cons {bs : List Blk} {s : YOut} (h : YKinds bs s) : ∃ n k ss, s.state = (n, k) :: ss := by
  unfold YKinds at h
  cases hs : s.state with
  | nil => rw [hs] at h; cases bs <;> cases h
  | cons x ss => exact ⟨x.1, x.2, ss, rfl⟩

section
variable {accepts : Bytes → Bool} {refuse : List YEv → Bool}

/-- A text that is taken: an event, or the refusal of it. -/
theorem scalar_taken {t : Bytes} {bs : List Blk} {s : YOut} (ha : accepts t = true) (hk : YKinds bs s) :
    (refuse (s.events ++ [.scalar t]) = false ∧ ∃ s', s.scalar accepts refuse t = (.fine, s') ∧ YKinds bs s' ∧ s'.events = s.events ++ [.scalar t] ∧ s'.error = s.error) ∨
      (refuse (s.events ++ [.scalar t]) = true ∧ ∃ s', s.scalar accepts refuse t = (.threw .std, s') ∧ YKinds bs s') := by
  obtain ⟨n, k, ss, hs⟩ := hk.cons
  unfold YOut.scalar YOut.emit
  rw [if_neg (by simp [ha])]
  cases hr : refuse (s.events ++ [.scalar t]) with
  | true => exact .inr ⟨rfl, _, rfl, hk⟩
  | false =>
    refine .inl ⟨rfl, { s with events := s.events ++ [.scalar t], state := (n + 1, k) :: ss }, ?_, ?_, rfl, rfl⟩
    · simp [hs]
    · unfold YKinds at hk ⊢
      rw [hs] at hk
      exact hk

/-- A call that may come: its event, or the refusal of it. -/
theorem yaml_call {p q : Place} {c : Cmd} {s : YOut} (hm : p.move c = some q) (ht : textTaken accepts c = true) (hk : YKinds p.blocks s) :
    (refuse (s.events ++ [eventOf c]) = false ∧ ∃ s', YOut.call accepts refuse c s = (.fine, s') ∧ YKinds q.blocks s' ∧ s'.events = s.events ++ [eventOf c] ∧ s'.error = s.error) ∨
      (refuse (s.events ++ [eventOf c]) = true ∧ ∃ s', YOut.call accepts refuse c s = (.threw .std, s') ∧ YKinds p.blocks s') := by
  have hb := Place.move_blocks hm
  obtain ⟨n, k, ss, hs⟩ := hk.cons
  have closing : ∀ b bs, p.blocks = b :: bs → YKinds bs { s with events := s.events ++ [eventOf c], state := s.state.tail } := by
    intro b bs hp
    unfold YKinds at hk ⊢
    rw [hp, hs] at hk
    rw [hs]
    exact (List.cons.inj hk).2
  rw [hb]
  cases c with
  | openMap m =>
    unfold YOut.call YOut.emit
    dsimp only [eventOf]
    cases hr : refuse (s.events ++ [.mapStart]) with
    | true => exact .inr ⟨rfl, _, rfl, hk⟩
    | false =>
      refine .inl ⟨rfl, _, rfl, ?_, rfl, rfl⟩
      unfold YKinds at hk ⊢
      exact congrArg (JPrint.Kind.Map :: ·) hk
  | openArray m =>
    unfold YOut.call YOut.emit
    dsimp only [eventOf]
    cases hr : refuse (s.events ++ [.seqStart]) with
    | true => exact .inr ⟨rfl, _, rfl, hk⟩
    | false =>
      refine .inl ⟨rfl, _, rfl, ?_, rfl, rfl⟩
      unfold YKinds at hk ⊢
      exact congrArg (JPrint.Kind.Array :: ·) hk
  | closeMap =>
    obtain ⟨bs, w⟩ := p
    simp only [Place.move] at hm
    split at hm <;> cases hm
    rename_i e
    cases e
    unfold YOut.call YOut.emit
    dsimp only [eventOf]
    cases hr : refuse (s.events ++ [.mapEnd]) with
    | true => exact .inr ⟨rfl, _, rfl, hk⟩
    | false =>
      refine .inl ⟨rfl, { s with events := s.events ++ [.mapEnd], state := s.state.tail }, ?_, closing _ _ rfl, rfl, rfl⟩
      simp [hs]
  | closeArray =>
    obtain ⟨bs, w⟩ := p
    simp only [Place.move] at hm
    split at hm <;> cases hm
    rename_i e
    cases e
    unfold YOut.call YOut.emit
    dsimp only [eventOf]
    cases hr : refuse (s.events ++ [.seqEnd]) with
    | true => exact .inr ⟨rfl, _, rfl, hk⟩
    | false =>
      refine .inl ⟨rfl, { s with events := s.events ++ [.seqEnd], state := s.state.tail }, ?_, closing _ _ rfl, rfl, rfl⟩
      simp [hs]
  | addKey key =>
    obtain ⟨bs, w⟩ := p
    simp only [Place.move] at hm
    split at hm <;> cases hm
    rename_i e
    cases e
    have hkm : k = .Map := by
      unfold YKinds at hk
      rw [hs] at hk
      exact (List.cons.inj hk).1
    have : YOut.call accepts refuse (.addKey key) s = s.scalar accepts refuse key := by
      unfold YOut.call
      dsimp only
      rw [hs]
      dsimp only
      rw [if_neg (by simp [hkm])]
    rw [this]
    exact scalar_taken ht hk
  | addInt _ i => exact scalar_taken ht hk
  | addFlt f x => exact scalar_taken ht hk
  | addBool b => exact scalar_taken ht hk
  | addStr t => exact scalar_taken ht hk
  | addNull => exact scalar_taken ht hk

/-- A call whose text is not taken. -/
theorem yaml_call_text {p q : Place} {c : Cmd} {s : YOut} (hm : p.move c = some q) (ht : textTaken accepts c = false) (hk : YKinds p.blocks s) :
    YOut.call accepts refuse c s = (.threw .std, { s with error := true }) ∧ c.closes = false := by
  obtain ⟨n, k, ss, hs⟩ := hk.cons
  have sc : ∀ t, accepts t = false → s.scalar accepts refuse t = (.threw .std, { s with error := true }) := by
    intro t h
    unfold YOut.scalar
    rw [if_pos h]
  cases c with
  | openMap m => cases ht
  | openArray m => cases ht
  | closeMap => cases ht
  | closeArray => cases ht
  | addKey key =>
    refine ⟨?_, rfl⟩
    unfold YOut.call
    dsimp only
    split
    · rename_i h
      rw [hs] at h
      cases h
    · split
      · rfl
      · exact sc _ ht
  | addInt _ i => exact ⟨sc _ ht, rfl⟩
  | addFlt f x => exact ⟨sc _ ht, rfl⟩
  | addBool b => exact ⟨sc _ ht, rfl⟩
  | addStr t => exact ⟨sc _ ht, rfl⟩
  | addNull => exact ⟨sc _ ht, rfl⟩

/-- Closing a block. -/
theorem yaml_close {b : Blk} {bs : List Blk} {s : YOut} (hk : YKinds (b :: bs) s) :
    (refuse (s.events ++ [eventOf b.close]) = false ∧ ∃ s', YOut.call accepts refuse b.close s = (.fine, s') ∧ YKinds bs s' ∧ s'.events = s.events ++ [eventOf b.close] ∧ s'.error = s.error) ∨
      (refuse (s.events ++ [eventOf b.close]) = true ∧ ∃ s', YOut.call accepts refuse b.close s = (.threw .std, s')) := by
  have hm : Place.move ⟨b :: bs, false⟩ b.close = some ⟨bs, false⟩ := by cases b <;> rfl
  have ht : textTaken accepts b.close = true := by cases b <;> rfl
  exact (yaml_call hm ht hk).imp id fun ⟨h, s', h1, _⟩ => ⟨h, s', h1⟩

/-- Where no value is awaited the blocks can be closed. -/
theorem unwind_closes (em : Emitter refuse) (e : Exc) (bs : List Blk) (s : YOut) (hk : YKinds bs s) (he : expects s.events = some (awaiting bs false)) :
    ∃ s', unwind (YOut.call accepts refuse) e bs s = (.threw e, s') ∧ expects s'.events = some [.docEnd, .docs] ∧ s'.error = s.error := by
  induction bs generalizing s with
  | nil => exact ⟨s, rfl, he, rfl⟩
  | cons b bs ih =>
    have hm : Place.move ⟨b :: bs, false⟩ b.close = some ⟨bs, false⟩ := by cases b <;> rfl
    have hx : expects (s.events ++ [eventOf b.close]) = some (awaiting bs false) := by
      rw [expects_snoc, he]
      exact expect_move hm
    rcases yaml_close (accepts := accepts) (refuse := refuse) hk with ⟨-, s1, h1, h2, h3, h4⟩ | ⟨h1, -⟩
    · unfold unwind
      rw [h1]
      dsimp only
      obtain ⟨s2, k1, k2, k3⟩ := ih s1 h2 (by rw [h3]; exact hx)
      exact ⟨s2, k1, k2, k3.trans h4⟩
    · rw [emitter_takes em hx] at h1
      cases h1

/-- An improper history stays improper. -/
theorem unwind_illegal (e : Exc) (bs : List Blk) (s : YOut) (hk : YKinds bs s) (he : ¬ Legal s.events) :
    ∃ s', unwind (YOut.call accepts refuse) e bs s = (.terminated, s') ∨ (unwind (YOut.call accepts refuse) e bs s = (.threw e, s') ∧ ¬ Legal s'.events) := by
  induction bs generalizing s with
  | nil => exact ⟨s, .inr ⟨rfl, he⟩⟩
  | cons b bs ih =>
    unfold unwind
    rcases yaml_close (accepts := accepts) (refuse := refuse) hk with ⟨-, s1, h1, h2, h3, h4⟩ | ⟨-, s1, h1⟩
    · rw [h1]
      exact ih s1 h2 (by rw [h3]; exact fun h => he (legal_snoc h))
    · rw [h1]
      exact ⟨s1, .inl rfl⟩

/-- Whatever is refused: an exception on its way through the blocks. -/
theorem unwind_any (e : Exc) (bs : List Blk) (s : YOut) (hk : YKinds bs s) :
    ∃ s', unwind (YOut.call accepts refuse) e bs s = (.terminated, s') ∨ unwind (YOut.call accepts refuse) e bs s = (.threw e, s') := by
  induction bs generalizing s with
  | nil => exact ⟨s, .inr rfl⟩
  | cons b bs ih =>
    unfold unwind
    rcases yaml_close (accepts := accepts) (refuse := refuse) hk with ⟨-, s1, h1, h2, h3, h4⟩ | ⟨-, s1, h1⟩
    · rw [h1]; exact ih s1 h2
    · rw [h1]; exact ⟨s1, .inl rfl⟩

/-- Whatever is refused: a traversal that is not undefined ends. -/
theorem play_any (stop : Stop) (hst : stop ≠ .undefined) (cs : List Cmd) (p r : Place) (s : YOut) (hw : Place.walk cs p = some r) (hk : YKinds p.blocks s) :
    ∃ s', play (YOut.call accepts refuse) stop cs p.blocks s = (.terminated, s') ∨ play (YOut.call accepts refuse) stop cs p.blocks s = (.done, s') ∨
      ∃ e, play (YOut.call accepts refuse) stop cs p.blocks s = (.threw e, s') := by
  induction cs generalizing p s with
  | nil =>
    cases stop with
    | undefined => exact absurd rfl hst
    | done => exact ⟨s, .inr (.inl rfl)⟩
    | threw e =>
      obtain ⟨s', h | h⟩ := unwind_any (accepts := accepts) (refuse := refuse) e p.blocks s hk
      · exact ⟨s', .inl h⟩
      · exact ⟨s', .inr (.inr ⟨e, h⟩)⟩
  | cons c cs ih =>
    rw [Place.walk] at hw
    cases hm : p.move c with
    | none => rw [hm] at hw; cases hw
    | some q =>
      rw [hm] at hw
      have thrown : ∀ s1, YKinds p.blocks s1 → ∃ s', (if c.closes then (Ended.terminated, s1) else unwind (YOut.call accepts refuse) .std p.blocks s1) = (.terminated, s') ∨
          (if c.closes then (Ended.terminated, s1) else unwind (YOut.call accepts refuse) .std p.blocks s1) = (.done, s') ∨
          ∃ e, (if c.closes then (Ended.terminated, s1) else unwind (YOut.call accepts refuse) .std p.blocks s1) = (.threw e, s') := by
        intro s1 h1
        cases c.closes
        · obtain ⟨s', h | h⟩ := unwind_any (accepts := accepts) (refuse := refuse) .std p.blocks s1 h1
          · exact ⟨s', .inl h⟩
          · exact ⟨s', .inr (.inr ⟨_, h⟩)⟩
        · exact ⟨s1, .inl rfl⟩
      unfold play
      cases ht : textTaken accepts c with
      | false =>
        rw [(yaml_call_text (refuse := refuse) hm ht hk).1]
        exact thrown _ hk
      | true =>
        rcases yaml_call (refuse := refuse) hm ht hk with ⟨-, s1, h1, h2, h3, h4⟩ | ⟨-, s1, h1, h2⟩
        · rw [h1]
          dsimp only
          rw [← Place.move_blocks hm]
          exact ih q s1 hw h2
        · rw [h1]
          exact thrown s1 h2

/-- As far as the texts are taken the events are proper. -/
theorem play_taken (em : Emitter refuse) (stop : Stop) (cs rest : List Cmd) (p r : Place) (s : YOut) (hw : Place.walk cs p = some r) (ht : cs.all (textTaken accepts) = true)
    (hk : YKinds p.blocks s) (he : expects s.events = some (awaiting p.blocks p.awaits)) :
    ∃ s', play (YOut.call accepts refuse) stop (cs ++ rest) p.blocks s = play (YOut.call accepts refuse) stop rest r.blocks s' ∧ YKinds r.blocks s' ∧
      expects s'.events = some (awaiting r.blocks r.awaits) ∧ s'.error = s.error ∧ s'.events = s.events ++ cs.map eventOf := by
  induction cs generalizing p s with
  | nil => cases hw; exact ⟨s, rfl, hk, he, rfl, by simp⟩
  | cons c cs ih =>
    rw [Place.walk] at hw
    cases hm : p.move c with
    | none => rw [hm] at hw; cases hw
    | some q =>
      rw [hm] at hw
      rw [List.all_cons, Bool.and_eq_true] at ht
      have hx : expects (s.events ++ [eventOf c]) = some (awaiting q.blocks q.awaits) := by
        rw [expects_snoc, he]
        exact expect_move hm
      rcases yaml_call (refuse := refuse) hm ht.1 hk with ⟨-, s1, h1, h2, h3, h4⟩ | ⟨h1, -⟩
      · obtain ⟨s', k1, k2, k3, k4, k5⟩ := ih q s1 hw ht.2 h2 (by rw [h3]; exact hx)
        refine ⟨s', ?_, k2, k3, k4.trans h4, ?_⟩
        · rw [List.cons_append, play, h1]
          dsimp only
          rw [← Place.move_blocks hm]
          exact k1
        · rw [k5, h3]
          simp
      · rw [emitter_takes em hx] at h1
        cases h1

/-- A failure at a place of the traversal, and the destructors up to that of the serialiser. -/
theorem fail_at (em : Emitter refuse) (e : Exc) (p : Place) (hp : p.awaits = true → p.blocks = [] ∨ ∃ bs, p.blocks = .map :: bs) (s : YOut) (hk : YKinds p.blocks s)
    (he : expects s.events = some (awaiting p.blocks p.awaits)) :
    (p.awaits = true → ∃ s', unwind (YOut.call accepts refuse) e p.blocks s = (.terminated, s') ∨
      (unwind (YOut.call accepts refuse) e p.blocks s = (.threw e, s') ∧ ∃ s'', inDtor (YOut.emit refuse .docEnd) (.threw e) s' = (.terminated, s''))) ∧
    (p.awaits = false → ∃ s', unwind (YOut.call accepts refuse) e p.blocks s = (.threw e, s') ∧
      ∃ s'', inDtor (YOut.emit refuse .docEnd) (.threw e) s' = (.threw e, s'') ∧ expects s''.events = some [.docs] ∧ s''.error = s.error) := by
  have refused : ∀ s', ¬ Legal (s'.events ++ [.docEnd]) → ∃ s'', inDtor (YOut.emit refuse .docEnd) (.threw e) s' = (.terminated, s'') := by
    intro s' h
    unfold inDtor YOut.emit
    rw [em.rejects _ h]
    exact ⟨_, rfl⟩
  obtain ⟨bs, w⟩ := p
  dsimp only at hp hk he ⊢
  constructor
  · rintro rfl
    rcases hp rfl with rfl | ⟨bs, rfl⟩
    · refine ⟨s, .inr ⟨rfl, refused s ?_⟩⟩
      intro h
      refine h ?_
      rw [expects_snoc, he]
      rfl
    · have hx : ¬ Legal (s.events ++ [.mapEnd]) := by
        intro h
        refine h ?_
        rw [expects_snoc, he]
        rfl
      unfold unwind
      rcases yaml_close (accepts := accepts) (refuse := refuse) hk with ⟨-, s1, h1, h2, h3, h4⟩ | ⟨-, s1, h1⟩
      · rw [h1]
        obtain ⟨s', h | ⟨h, hl⟩⟩ := unwind_illegal (accepts := accepts) (refuse := refuse) e bs s1 h2 (by rw [h3]; exact hx)
        · exact ⟨s', .inl h⟩
        · exact ⟨s', .inr ⟨h, refused s' fun x => hl (legal_snoc x)⟩⟩
      · rw [h1]
        exact ⟨s1, .inl rfl⟩
  · rintro rfl
    obtain ⟨s', h1, h2, h3⟩ := unwind_closes (accepts := accepts) em e bs s hk he
    have hx : expects (s'.events ++ [.docEnd]) = some [.docs] := by
      rw [expects_snoc, h2]
      rfl
    refine ⟨s', h1, { s' with events := s'.events ++ [.docEnd] }, ?_, hx, h3⟩
    unfold inDtor YOut.emit
    rw [emitter_takes em hx]
    rfl

end

/-! ### The model without destructors -/

theorem yrun_events (accepts : Bytes → Bool) : ∀ (cs : List Cmd) (p r : Place) (s : YOut), Place.walk cs p = some r → YKinds p.blocks s → cs.all (textTaken accepts) = true →
    ∃ ss, YPrint.run accepts cs s.state = .ok (cs.map eventOf, ss)
  | [], p, r, s, _, _, _ => ⟨_, rfl⟩
  | c :: cs, p, r, s, hw, hk, ht => by
    rw [Place.walk] at hw
    cases hm : p.move c with
    | none => rw [hm] at hw; cases hw
    | some q =>
      rw [hm] at hw
      rw [List.all_cons, Bool.and_eq_true] at ht
      obtain ⟨n, k, ss, hs⟩ := hk.cons
      have hstep : ∃ ss', YPrint.step accepts c s.state = .ok ([eventOf c], ss') ∧ YKinds q.blocks { s with state := ss' } := by
        have sc : ∀ t, accepts t = true → q.blocks = p.blocks → ∃ ss', YPrint.emit accepts t s.state = .ok ([.scalar t], ss') ∧ YKinds q.blocks { s with state := ss' } := by
          intro t ha hq
          refine ⟨(n + 1, k) :: ss, ?_, ?_⟩
          · rw [hs, YPrint.emit, if_pos ha]
          · unfold YKinds at hk ⊢
            rw [hs] at hk
            rw [hq]
            exact hk
        have hb := Place.move_blocks hm
        have closing : ∀ b bs, p.blocks = b :: bs → YKinds bs { s with state := ss } := by
          intro b bs hp
          unfold YKinds at hk ⊢
          rw [hp, hs] at hk
          exact (List.cons.inj hk).2
        cases c with
        | openMap m => exact ⟨_, rfl, by rw [hb]; unfold YKinds at hk ⊢; exact congrArg (JPrint.Kind.Map :: ·) hk⟩
        | openArray m => exact ⟨_, rfl, by rw [hb]; unfold YKinds at hk ⊢; exact congrArg (JPrint.Kind.Array :: ·) hk⟩
        | closeMap =>
          obtain ⟨bs, w⟩ := p
          simp only [Place.move] at hm
          split at hm <;> cases hm
          rename_i e
          cases e
          exact ⟨ss, by rw [hs]; rfl, closing _ _ rfl⟩
        | closeArray =>
          obtain ⟨bs, w⟩ := p
          simp only [Place.move] at hm
          split at hm <;> cases hm
          rename_i e
          cases e
          exact ⟨ss, by rw [hs]; rfl, closing _ _ rfl⟩
        | addKey key =>
          obtain ⟨bs, w⟩ := p
          simp only [Place.move] at hm
          split at hm <;> cases hm
          rename_i e
          cases e
          have hkm : k = .Map := by
            unfold YKinds at hk
            rw [hs] at hk
            exact (List.cons.inj hk).1
          obtain ⟨ss', h1, h2⟩ := sc key ht.1 rfl
          refine ⟨ss', ?_, h2⟩
          rw [hs] at h1 ⊢
          unfold YPrint.step
          dsimp only
          rw [if_neg (by simp [hkm])]
          exact h1
        | addInt _ i => exact sc _ ht.1 hb
        | addFlt f x => exact sc _ ht.1 hb
        | addBool b => exact sc _ ht.1 hb
        | addStr t => exact sc _ ht.1 hb
        | addNull => exact sc _ ht.1 hb
      obtain ⟨ss', h1, h2⟩ := hstep
      obtain ⟨ss2, h3⟩ := yrun_events accepts cs q r _ hw h2 ht.2
      refine ⟨ss2, ?_⟩
      unfold YPrint.run
      rw [h1, Res.ok_bind]
      dsimp only at h3 ⊢
      rw [h3]
      rfl

end Thors
