import Verif.Prop.OrderUI

/-!
# C67: histories of sales on two mutually linked curves
-/

set_option linter.unusedSectionVars false

namespace Carbon.UICurve

variable {K : Type} [Field K] [LinearOrder K] [IsStrictOrderedRing K]

/-- Specification: what left the selling curve and what came in for it, according to the returned report. -/
def flow (r : Py (Option (Sale K))) : K × K :=
  match r with
  | .ok (some s) => if s.executed then (s.dy, s.dx) else (0, 0)
  | _ => (0, 0)

/-- Requests not within the rounding tolerance just above the holdings. -/
def Clear (c : UICurve K) (dy : K) : Prop := 0 ≤ dy ∧ (dy ≤ c.y ∨ c.y + EPS < dy)

/-- `Hist a b fa fb a' b'`: some sequence of requests on the two curves, each linked to the other, leads from `a, b` to
`a', b'`, with net reported inflows `fa` and `fb`. -/
inductive Hist : UICurve K → UICurve K → K → K → UICurve K → UICurve K → Prop
  | nil (a b) : Hist a b 0 0 a b
  | sellA (a b dy an ec r res a1 b1 fa fb a' b') : Clear a dy →
      selly ⟨a, some b⟩ dy true an ec r = (res, ⟨a1, some b1⟩) → Hist a1 b1 fa fb a' b' →
      Hist a b (fa - (flow res).1) (fb + (flow res).2) a' b'
  | sellB (a b dy an ec r res a1 b1 fa fb a' b') : Clear b dy →
      selly ⟨b, some a⟩ dy true an ec r = (res, ⟨b1, some a1⟩) → Hist a1 b1 fa fb a' b' →
      Hist a b (fa + (flow res).2) (fb - (flow res).1) a' b'

/-- One request: both curves stay valid and the holdings move by exactly the reported amounts. -/
theorem C67_step (a b : UICurve K) (ha : Sound a) (hb : Sound b) (dy : K) (hc : Clear a dy) (an ec r : Bool) :
    ∃ res a1 b1, selly ⟨a, some b⟩ dy true an ec r = (res, ⟨a1, some b1⟩) ∧ Sound a1 ∧ Sound b1 ∧
      a1.y = a.y - (flow res).1 ∧ b1.y = b.y + (flow res).2 ∧ a1.yint = a.yint ∧ b1.yint = max b.yint b1.y ∧
      a1.B = a.B ∧ a1.S = a.S ∧ b1.B = b.B ∧ b1.S = b.S ∧
      (EPS ≤ dy → dy ≤ a.y → (flow res).1 = dy ∧ a.dxfromdyF dy = .ok (some (flow res).2)) ∧
      (dy < EPS ∨ a.y < dy → flow res = (0, 0)) := by
  obtain ⟨h0, hc⟩ := hc
  have hl : ∀ l, (⟨a, some b⟩ : World K).linked = some l → Sound l := by
    intro l h; simp only [Option.some.injEq] at h; exact h ▸ hb
  have he := eps_pos (K := K)
  have hbm : b.yint = max b.yint b.y := (max_eq_left hb.hy).symm
  by_cases hd : EPS ≤ dy
  · rw [selly_eq_core hd]
    rcases hc with hc | hc
    · obtain ⟨s, w', e, e1, e2, _, _, e3, _, _, _, _, _, e4, _, e5⟩ :=
        sellyCore_ok (w := ⟨a, some b⟩) ha hl h0 hc true ec r
      obtain ⟨l', l1, l2, l3, l4, l5, l6, _, _⟩ := e5 b rfl
      obtain ⟨ws, wl⟩ := w'
      simp only [if_true] at e4 l1
      subst e4 l1
      refine ⟨_, _, l', e, ?_, l2, ?_, ?_, rfl, ?_, rfl, rfl, l5, l6, ?_, ?_⟩
      · exact sound_sub ha h0 hc
      · simp [flow, e3, e1]
      · simp [flow, e3, l3]
      · rw [l4, l3]
      · intro _ _; simp only [flow, e3, if_true]; exact ⟨e1, e2⟩
      · rintro (h | h)
        · exact absurd hd (not_le.mpr h)
        · exact absurd hc (not_le.mpr h)
    · obtain ⟨c1, c2⟩ := sellyCore_too_much ⟨a, some b⟩ dy hc true ec r
      have hf : flow (sellyCore ⟨a, some b⟩ dy true ec r).1 = (0, 0) := by
        unfold flow
        split
        · rename_i s h; exact absurd h (c2 s)
        · rfl
      refine ⟨_, a, b, Prod.ext rfl c1, ha, hb, ?_, ?_, rfl, hbm, rfl, rfl, rfl, rfl, ?_, fun _ => hf⟩
      · rw [hf, sub_zero]
      · rw [hf, add_zero]
      · intro _ h; linarith
  · rw [selly_eq_dust h0 (not_le.mp hd)]
    obtain ⟨s, w', e, e1, e2, _, _, e3, _, _, _, _, _, e4, _, e5⟩ :=
        sellyCore_ok (w := ⟨a, some b⟩) ha hl le_rfl ha.hy0 false ec r
    have hdx : s.dx = 0 := by
      have := dxfromdyF_ok ha ha.hy0 true false (fun _ => le_rfl)
      rw [this] at e2
      simp only [zero_mul, Except.ok.injEq, Option.some.injEq] at e2
      exact e2.symm
    obtain ⟨l', l1, l2, l3, l4, l5, l6, _, _⟩ := e5 b rfl
    obtain ⟨ws, wl⟩ := w'
    simp only [Bool.false_eq_true, if_false] at e4 l1
    subst e4 l1
    have hf : flow (.ok (some s)) = (0, 0) := by simp [flow, e3]
    refine ⟨_, _, l', e, ha, l2, ?_, ?_, rfl, ?_, rfl, rfl, l5, l6, ?_, fun _ => hf⟩
    · rw [hf, sub_zero]
    · rw [hf, add_zero, l3, hdx, add_zero]
    · rw [l4, l3]
    · intro h _; exact absurd h hd

/-- Over any history of requests on a linked pair both curves stay valid, their shapes do not change, capacities never
shrink, and the holdings are the initial ones plus the net reported inflow of the respective token. -/
theorem C67_history (a b a' b' : UICurve K) (fa fb : K) (h : Hist a b fa fb a' b') (ha : Sound a) (hb : Sound b) :
    Sound a' ∧ Sound b' ∧ a'.y = a.y + fa ∧ b'.y = b.y + fb ∧ a.yint ≤ a'.yint ∧ b.yint ≤ b'.yint ∧
      a'.B = a.B ∧ a'.S = a.S ∧ b'.B = b.B ∧ b'.S = b.S := by
  induction h with
  | nil a b => simp [ha, hb]
  | sellA a b dy an ec r res a1 b1 fa fb a' b' hc e _ ih =>
    obtain ⟨res', a2, b2, e', s1, s2, y1, y2, z1, z2, q1, q2, q3, q4, _⟩ := C67_step a b ha hb dy hc an ec r
    rw [e'] at e
    simp only [Prod.mk.injEq, World.mk.injEq, Option.some.injEq] at e
    obtain ⟨rfl, rfl, rfl⟩ := e
    obtain ⟨i1, i2, i3, i4, i5, i6, i7, i8, i9, i10⟩ := ih s1 s2
    have : b.yint ≤ b2.yint := by rw [z2]; exact le_max_left _ _
    exact ⟨i1, i2, by rw [i3, y1]; ring, by rw [i4, y2]; ring, by linarith, by linarith, by rw [i7, q1], by rw [i8, q2],
      by rw [i9, q3], by rw [i10, q4]⟩
  | sellB a b dy an ec r res a1 b1 fa fb a' b' hc e _ ih =>
    obtain ⟨res', b2, a2, e', s1, s2, y1, y2, z1, z2, q1, q2, q3, q4, _⟩ := C67_step b a hb ha dy hc an ec r
    rw [e'] at e
    simp only [Prod.mk.injEq, World.mk.injEq, Option.some.injEq] at e
    obtain ⟨rfl, rfl, rfl⟩ := e
    obtain ⟨i1, i2, i3, i4, i5, i6, i7, i8, i9, i10⟩ := ih s2 s1
    have : a.yint ≤ a2.yint := by rw [z2]; exact le_max_left _ _
    exact ⟨i1, i2, by rw [i3, y2]; ring, by rw [i4, y1]; ring, by linarith, by linarith, by rw [i7, q3], by rw [i8, q4],
      by rw [i9, q1], by rw [i10, q2]⟩

/-- The same history exists for every sequence of clear requests: a request is never stuck. -/
theorem C67_not_stuck (a b : UICurve K) (ha : Sound a) (hb : Sound b) (dy : K) (hc : Clear a dy) :
    ∃ fa fb a' b', Hist a b fa fb a' b' ∧ (EPS ≤ dy → dy ≤ a.y → fa = -dy) := by
  obtain ⟨res, a1, b1, e, _, _, _, _, _, _, _, _, _, _, h, _⟩ := C67_step a b ha hb dy hc true false false
  exact ⟨_, _, _, _, .sellA a b dy true false false res a1 b1 0 0 a1 b1 hc e (.nil _ _),
    fun h1 h2 => by rw [(h h1 h2).1]; ring⟩

example : Sound sampleCurve ∧ Sound sampleLinked ∧ Clear sampleCurve 25 ∧ (EPS : ℚ) ≤ 25 ∧
    (selly ⟨sampleCurve, some sampleLinked⟩ 25).2.self.y = 25 ∧
    (selly ⟨sampleCurve, some sampleLinked⟩ 25).2.linked.map (·.y) = some (sampleLinked.y + 40 / 3) := by
  refine ⟨?_, ?_, ?_, ?_, ?_, ?_⟩
  · constructor <;> decide +kernel
  · constructor <;> decide +kernel
  · exact ⟨by norm_num, .inl (by norm_num [sampleCurve])⟩
  · decide +kernel
  · decide +kernel
  · decide +kernel

end Carbon.UICurve
