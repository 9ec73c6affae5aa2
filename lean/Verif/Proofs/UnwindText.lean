import Verif.Proofs.Unwind
/-
Exports to strings that do not come to their end.
-/
namespace Thors
open StrIn

theorem strout_putAll_append (a b : List Write) (s : StrOut) : s.putAll (a ++ b) = (s.putAll a).bind (fun s => s.putAll b) := by
  induction a generalizing s with
  | nil => rfl
  | cons w a ih =>
    rw [List.cons_append, StrOut.putAll, StrOut.putAll]
    cases s.put w with
    | ub => rfl
    | throw e => rfl
    | ok s1 => exact ih s1

/-- The first pass only counts. -/
theorem putAll_counts (ws : List Write) (s : StrOut) (h : s.preFlight = true) : ∃ s', s.putAll ws = .ok s' ∧ s'.preFlight = true ∧ s'.data = s.data := by
  induction ws generalizing s with
  | nil => exact ⟨s, rfl, h, rfl⟩
  | cons w ws ih =>
    have : ∃ s', s.put w = .ok s' ∧ s'.preFlight = true ∧ s'.data = s.data := by
      cases w <;> unfold StrOut.put <;> dsimp only <;> rw [if_pos h] <;> exact ⟨_, rfl, h, rfl⟩
    obtain ⟨s1, h1, h2, h3⟩ := this
    obtain ⟨s2, h4, h5, h6⟩ := ih s1 h2
    exact ⟨s2, by rw [StrOut.putAll, h1]; exact h4, h5, h6.trans h3⟩

theorem onString_ok {τ : Type} {step : Cmd → τ → Res (List Write × τ)} {c : Cmd} {t t' : τ} {s s' : StrOut} {ws : List Write} (h : step c t = .ok (ws, t'))
    (hs : s.putAll ws = .ok s') : onString step c (t, s) = (.fine, t', s') := by
  unfold onString
  simp only [h, hs]

theorem onString_ub {τ : Type} {step : Cmd → τ → Res (List Write × τ)} {c : Cmd} {t : τ} {s : StrOut} (h : step c t = .ub) : onString step c (t, s) = (.undefined, t, s) := by
  unfold onString
  simp only [h]

section
variable {τ : Type} {step : Cmd → τ → Res (List Write × τ)} {Inv : List Blk → τ → Prop} (S : Sturdy step Inv)

include S in
theorem unwind_counts (e : Exc) (bs : List Blk) (t : τ) (s : StrOut) (hi : Inv bs t) (hs : s.preFlight = true) :
    ∃ t' s', unwind (onString step) e bs (t, s) = (.threw e, t', s') ∧ s'.preFlight = true ∧ s'.data = s.data := by
  induction bs generalizing t s with
  | nil => exact ⟨t, s, rfl, hs, rfl⟩
  | cons b bs ih =>
    obtain ⟨ws, t', h1, h2⟩ := S.close b bs t hi
    obtain ⟨s1, h3, h4, h5⟩ := putAll_counts ws s hs
    obtain ⟨t2, s2, k1, k2, k3⟩ := ih t' s1 h2 h4
    refine ⟨t2, s2, ?_, k2, k3.trans h5⟩
    unfold unwind
    rw [onString_ok h1 h3]
    exact k1

include S in
/-- The first pass ends as the serialiser does, unless a call is undefined; the string stays as it is. -/
theorem play_counts (stop : Stop) (cs : List Cmd) (p r : Place) (t : τ) (s : StrOut) (hw : Place.walk cs p = some r) (hi : Inv p.blocks t) (hs : s.preFlight = true) :
    (play (onString step) stop cs p.blocks (t, s)).2.2.preFlight = true ∧ (play (onString step) stop cs p.blocks (t, s)).2.2.data = s.data ∧
      ((play (onString step) stop cs p.blocks (t, s)).1 = stop.ended ∨
        (play (onString step) stop cs p.blocks (t, s)).1 = .undefined ∧ runCalls step cs t = .ub) := by
  induction cs generalizing p t s with
  | nil =>
    cases stop with
    | done => exact ⟨hs, rfl, .inl rfl⟩
    | undefined => exact ⟨hs, rfl, .inl rfl⟩
    | threw e =>
      obtain ⟨t', s', h, h1, h2⟩ := unwind_counts S e p.blocks t s hi hs
      unfold play
      dsimp only
      rw [h]
      exact ⟨h1, h2, .inl rfl⟩
  | cons c cs ih =>
    rw [Place.walk] at hw
    cases hm : p.move c with
    | none => rw [hm] at hw; cases hw
    | some q =>
      rw [hm] at hw
      have hb := Place.move_blocks hm
      unfold play runCalls
      rcases S.call p q c t hm hi with ⟨hu, -⟩ | ⟨ws, t', h1, h2⟩
      · rw [onString_ub hu, hu]
        exact ⟨hs, rfl, .inr ⟨rfl, rfl⟩⟩
      · obtain ⟨s1, h3, h4, h5⟩ := putAll_counts ws s hs
        rw [onString_ok h1 h3, h1]
        dsimp only
        rw [← hb]
        obtain ⟨k1, k2, k3⟩ := ih q t' s1 hw h2 h4
        refine ⟨k1, k2.trans h5, k3.imp id fun k => ⟨k.1, ?_⟩⟩
        rw [Res.ok_bind]
        dsimp only
        rw [k.2]
        rfl

/-- A pass to its end. -/
theorem play_text (cs : List Cmd) (bs : List Blk) (t t' : τ) (ws : List Write) (s s' : StrOut) (hr : runCalls step cs t = .ok (ws, t')) (hs : s.putAll ws = .ok s') :
    play (onString step) .done cs bs (t, s) = (.done, t', s') := by
  induction cs generalizing bs t ws s with
  | nil =>
    cases hr
    cases hs
    rfl
  | cons c cs ih =>
    unfold runCalls at hr
    obtain ⟨⟨a, t1⟩, e1, hr⟩ := Res.bind_eq_ok.1 hr
    obtain ⟨⟨b, t2⟩, e2, hr⟩ := Res.bind_eq_ok.1 hr
    cases hr
    rw [strout_putAll_append] at hs
    cases ha : s.putAll a with
    | ub => rw [ha] at hs; cases hs
    | throw e => rw [ha] at hs; cases hs
    | ok s1 =>
      rw [ha] at hs
      unfold play
      rw [onString_ok e1 ha]
      exact ih (c.blocks bs) t1 b s1 e2 hs

end
end Thors
