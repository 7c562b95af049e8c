import Mathlib.Tactic.FieldSimp
import Mathlib.Tactic.Linarith
import Mathlib.Tactic.Ring
import Mathlib.Tactic.Positivity
import Verif.Carbon.OrderUI

/-! Helper lemmas: evaluation of the curve functions on sound curves. -/

set_option linter.unusedSectionVars false

namespace Carbon.UICurve

open CarbonPair (pyDiv)

variable {K : Type} [Field K] [LinearOrder K] [IsStrictOrderedRing K]

/-- A curve with positive end price, sorted range, positive capacity, and holdings within capacity. -/
structure Sound (c : UICurve K) : Prop where
  hB : 0 < c.B
  hS : 0 ≤ c.S
  hyint : 0 < c.yint
  hy0 : 0 ≤ c.y
  hy : c.y ≤ c.yint

/-- The curve sells exactly one of the two tokens of its pair. -/
def Proper (c : UICurve K) : Prop :=
  (c.tkn = c.pair.tknb ∧ c.tkn ≠ c.pair.tknq) ∨ (c.tkn = c.pair.tknq ∧ c.tkn ≠ c.pair.tknb)

/-- The price in the convention of the pair that belongs to a raw price `dy/dx`. -/
def inConv (c : UICurve K) (raw : K) : K := if c.pair.hasQuote c.tkn then raw else 1 / raw

theorem pyDiv_ok {a b : K} (h : b ≠ 0) : pyDiv a b = .ok (a / b) := by simp [pyDiv, h]

namespace Sound

variable {c : UICurve K}

theorem m_pos (h : Sound c) : 0 < c.S * c.y + c.B * c.yint := by
  have := mul_nonneg h.hS h.hy0
  have := mul_pos h.hB h.hyint
  linarith

theorem n_pos (h : Sound c) {dy : K} (hd : dy ≤ c.y) : 0 < c.S * c.y + c.B * c.yint - c.S * dy := by
  have h1 := mul_nonneg h.hS (sub_nonneg.mpr hd)
  have := mul_pos h.hB h.hyint
  have : c.S * (c.y - dy) = c.S * c.y - c.S * dy := by ring
  linarith

theorem not_disabled (h : Sound c) : c.disabled = false := by
  have := mul_pos h.hB h.hB
  simp [disabled, pbRaw, this.ne']

theorem not_empty (h : Sound c) : ¬ (c.B = 0 ∧ c.S = 0) := fun hh => h.hB.ne' hh.1

end Sound

theorem quotePrice_ok {c : UICurve K} {d : K} (hd : 0 < d) : c.quotePrice d = .ok (some (c.inConv d)) := by
  unfold quotePrice inConv
  split
  · rfl
  · rw [pyDiv_ok hd.ne']; rfl

/-- Value of `dxfromdy_f` on a sound curve. -/
theorem dxfromdyF_ok {c : UICurve K} (h : Sound c) {dy : K} (hd : dy ≤ c.y) (cb r : Bool)
    (hcb : cb = true → 0 ≤ dy) :
    c.dxfromdyF dy cb r = .ok (some (dy * (c.yint ^ 2 /
      ((c.S * c.y + c.B * c.yint) * (c.S * c.y + c.B * c.yint - c.S * dy))))) := by
  unfold dxfromdyF
  rw [if_neg h.not_empty, if_neg, if_neg]
  · dsimp only
    rw [pyDiv_ok (mul_pos h.m_pos (h.n_pos hd)).ne']
    rfl
  · simp only [Bool.and_eq_true, decide_eq_true_eq, not_and, gt_iff_lt, not_lt]; exact fun _ => hd
  · simp only [Bool.and_eq_true, decide_eq_true_eq, not_and, not_lt]; exact hcb

/-- Value of `dyfromdx_f` on a sound curve. -/
theorem dyfromdxF_ok {c : UICurve K} (h : Sound c) {dx : K} (hd : 0 ≤ dx) (cb r : Bool) :
    c.dyfromdxF dx cb r = .ok (some (dx * ((c.S * c.y + c.B * c.yint) ^ 2 /
      (c.S * dx * (c.S * c.y + c.B * c.yint) + c.yint ^ 2)))) := by
  unfold dyfromdxF
  have h1 := h.m_pos
  have h2 := h.hyint
  have h3 := h.hS
  rw [if_neg h.not_empty, if_neg]
  · dsimp only
    rw [if_neg, pyDiv_ok (by positivity)]
    · rfl
    · simp only [Bool.and_eq_true, decide_eq_true_eq, not_and, not_lt]; intro _; positivity
  · simp only [Bool.and_eq_true, decide_eq_true_eq, not_and, not_lt]; exact fun _ => hd

/-- Value of `xfromy_f` on a sound curve. -/
theorem xfromyF_ok {c : UICurve K} (h : Sound c) {y : K} (h0 : 0 ≤ y) (h1 : y ≤ c.yint) (cb r : Bool) :
    c.xfromyF y cb r = .ok (some (c.yint * (c.yint - y) / ((c.B + c.S) * (c.B * c.yint + c.S * y)))) := by
  have hB := h.hB
  have hS := h.hS
  have hz := h.hyint
  unfold xfromyF
  rw [if_neg, if_neg]
  · dsimp only
    have he : c.B ^ 2 * c.yint + c.B * c.S * y + c.B * c.S * c.yint + c.S ^ 2 * y =
        (c.B + c.S) * (c.B * c.yint + c.S * y) := by ring
    rw [he, pyDiv_ok (by positivity)]
    rfl
  · simp only [Bool.and_eq_true, decide_eq_true_eq, not_and, not_lt]; exact fun _ => h0
  · simp only [Bool.and_eq_true, decide_eq_true_eq, not_and, gt_iff_lt, not_lt]; exact fun _ => h1

/-- Value of `p_marg_f` on a sound curve. -/
theorem pMargF_ok {c : UICurve K} (h : Sound c) {dy : K} (hd : dy ≤ c.y) (cb r : Bool) (hcb : cb = true → 0 ≤ dy) :
    c.pMargF dy false cb r = .ok (some (c.inConv ((c.B + c.S * (c.y - dy) / c.yint) ^ 2))) := by
  have hB := h.hB
  have hS := h.hS
  have hz := h.hyint
  have hs : 0 ≤ c.y - dy := sub_nonneg.mpr hd
  unfold pMargF
  rw [if_neg (by simp [h.not_disabled])]
  simp only [Bool.false_eq_true, if_false]
  rw [if_neg, if_neg, if_neg hz.ne', quotePrice_ok (by positivity)]
  · simp only [Bool.and_eq_true, decide_eq_true_eq, not_and, not_lt]; exact fun _ => hs
  · simp only [Bool.and_eq_true, decide_eq_true_eq, not_and, not_lt]; exact hcb

theorem pMargF_full_ok {c : UICurve K} (h : Sound c) {dy : K} (hd : dy ≤ c.yint) (cb r : Bool)
    (hcb : cb = true → 0 ≤ dy) :
    c.pMargF dy true cb r = .ok (some (c.inConv ((c.B + c.S * (c.yint - dy) / c.yint) ^ 2))) := by
  have hB := h.hB
  have hS := h.hS
  have hz := h.hyint
  have hs : 0 ≤ c.yint - dy := sub_nonneg.mpr hd
  unfold pMargF
  rw [if_neg (by simp [h.not_disabled])]
  simp only [if_true]
  rw [if_neg, if_neg, if_neg hz.ne', quotePrice_ok (by positivity)]
  · simp only [Bool.and_eq_true, decide_eq_true_eq, not_and, not_lt]; exact fun _ => hs
  · simp only [Bool.and_eq_true, decide_eq_true_eq, not_and, not_lt]; exact hcb

theorem pMarg_ok {c : UICurve K} (h : Sound c) :
    c.pMarg = .ok (some (c.inConv ((c.B + c.S * c.y / c.yint) ^ 2))) := by
  have := pMargF_ok h (dy := 0) h.hy0 true false (fun _ => le_rfl)
  rw [sub_zero] at this
  exact this

theorem eps_pos : (0 : K) < EPS := by unfold EPS; positivity

/-- Adding liquidity to a sound curve succeeds, adds exactly the amount and keeps the curve sound. -/
theorem addliqy_ok {c : UICurve K} (h : Sound c) {d : K} (hd : 0 ≤ d) :
    ∃ c', c.addliqy d = (.ok (), c') ∧ Sound c' ∧ c'.y = c.y + d ∧ c'.yint = max c.yint (c.y + d) ∧
      c'.B = c.B ∧ c'.S = c.S ∧ c'.pair = c.pair ∧ c'.tkn = c.tkn := by
  unfold addliqy
  rw [if_neg (not_lt.mpr hd), pMarg_ok h]
  have hy := h.hy0
  have hi := h.hyint
  dsimp only
  split
  · rename_i hgt
    have hs : Sound { c with yint := c.y + d, y := c.y + d } := by
      refine ⟨h.hB, h.hS, ?_, ?_, ?_⟩ <;> simp only <;> linarith
    refine ⟨_, ?_, hs, rfl, ?_, rfl, rfl, rfl, rfl⟩
    · simp only [Bool.not_true, Bool.false_eq_true, if_false, pMarg_ok hs]; rfl
    · simp only; rw [max_eq_right]; linarith
  · rename_i hgt
    have hs : Sound { c with y := c.y + d } := by
      refine ⟨h.hB, h.hS, ?_, ?_, ?_⟩ <;> simp only <;> linarith
    refine ⟨_, ?_, hs, rfl, ?_, rfl, rfl, rfl, rfl⟩
    · simp only [pMarg_ok hs]; rfl
    · simp only; rw [max_eq_left]; linarith

/-- The linked curve, if any, after receiving `dx`. -/
theorem creditLinked_ok {w : World K} (hl : ∀ l, w.linked = some l → Sound l) {dx : K} (hd : 0 ≤ dx) :
    ∃ w', creditLinked w dx = (.ok (), w') ∧ w'.self = w.self ∧ (w.linked = none → w'.linked = none) ∧
      (∀ l, w.linked = some l → ∃ l', w'.linked = some l' ∧ Sound l' ∧ l'.y = l.y + dx ∧
        l'.yint = max l.yint (l.y + dx) ∧ l'.B = l.B ∧ l'.S = l.S ∧ l'.pair = l.pair ∧ l'.tkn = l.tkn) := by
  unfold creditLinked
  split
  · rename_i h
    refine ⟨w, rfl, rfl, fun _ => h, ?_⟩
    intro l hl'; rw [h] at hl'; cases hl'
  · rename_i l h
    obtain ⟨c', e, hs, r⟩ := addliqy_ok (hl l h) hd
    rw [e]
    refine ⟨_, rfl, rfl, ?_, ?_⟩
    · intro hn; rw [h] at hn; cases hn
    · intro l2 hl2
      rw [h] at hl2; cases hl2
      exact ⟨c', rfl, hs, r⟩

/-- Everything a sale of an amount within the holdings does, executed or not. -/
theorem sellyCore_ok {w : World K} (h : Sound w.self) (hl : ∀ l, w.linked = some l → Sound l) {dy : K}
    (h0 : 0 ≤ dy) (hd : dy ≤ w.self.y) (ex expand r : Bool) :
    ∃ s w', sellyCore w dy ex expand r = (.ok (some s), w') ∧
      s.dy = dy ∧ w.self.dxfromdyF dy = .ok (some s.dx) ∧ 0 ≤ s.dx ∧ s.y = w.self.y - dy ∧ s.executed = ex ∧
      s.yOld = w.self.y ∧ s.expanded = false ∧
      w.self.pMarg = .ok s.pOld ∧ w.self.pMargF dy = .ok s.pNew ∧ w.self.xfromyF (w.self.y - dy) = .ok s.x ∧
      w'.self = (if ex then { w.self with y := w.self.y - dy } else w.self) ∧
      (w.linked = none → w'.linked = none) ∧
      (∀ l, w.linked = some l → ∃ l', w'.linked = some l' ∧ Sound l' ∧ l'.y = l.y + s.dx ∧
        l'.yint = max l.yint (l.y + s.dx) ∧ l'.B = l.B ∧ l'.S = l.S ∧ l'.pair = l.pair ∧ l'.tkn = l.tkn) := by
  have hy := h.hy
  have hn : 0 ≤ w.self.y - dy := sub_nonneg.mpr hd
  have he := eps_pos (K := K)
  have hdx0 : 0 ≤ dy * (w.self.yint ^ 2 / ((w.self.S * w.self.y + w.self.B * w.self.yint) *
      (w.self.S * w.self.y + w.self.B * w.self.yint - w.self.S * dy))) := by
    have := h.m_pos; have := h.n_pos hd
    positivity
  have hdx := dxfromdyF_ok h hd false true (by simp)
  have hdx' := dxfromdyF_ok h hd true false (fun _ => h0)
  set w1 : World K := if ex then { w with self := { w.self with y := w.self.y - dy } } else w with hw1
  have hw1l : w1.linked = w.linked := by rw [hw1]; split <;> rfl
  obtain ⟨w2, e2, hs2, hl2, hl3⟩ := creditLinked_ok (w := w1) (by rw [hw1l]; exact hl) hdx0
  have hx : w2.self.xfromyF (w.self.y - dy) = w.self.xfromyF (w.self.y - dy) := by
    rw [hs2, hw1]
    split <;> rfl
  have hxo := xfromyF_ok h hn (by linarith) true false
  refine ⟨⟨ex, w.self.y, w.self.y - dy, dy, _, false, _, _, _⟩, w2, ?_, rfl, hdx', hdx0, rfl, rfl, rfl, rfl,
    pMarg_ok h, pMargF_ok h hd true false (fun _ => h0), hxo, ?_, ?_, ?_⟩
  · unfold sellyCore
    rw [pMarg_ok h, pMargF_ok h hd false false (by simp)]
    dsimp only
    rw [if_neg (by linarith), if_neg (by linarith), if_neg (by linarith)]
    unfold sellyFinish
    rw [hdx]
    dsimp only
    rw [← hw1, e2]
    dsimp only
    rw [hx, hxo]
  · rw [hs2, hw1]; cases ex <;> rfl
  · intro hh; exact hl2 (by rw [hw1l]; exact hh)
  · intro l hh
    exact hl3 l (by rw [hw1l]; exact hh)

/-- `selly` on an amount that is not dust is its core. -/
theorem selly_eq_core {w : World K} {dy : K} (h0 : EPS ≤ dy) (ex an expand r : Bool) :
    selly w dy ex an expand r = sellyCore w dy ex expand r := by
  have he := eps_pos (K := K)
  have h1 : ¬ dy < 0 := by linarith
  unfold selly
  rw [if_neg (fun hh => h1 hh.1)]
  dsimp only
  have e : (if dy < 0 ∧ (!an) = true then 0 else dy) = dy := if_neg (fun hh => h1 hh.1)
  rw [e, if_neg]
  rw [abs_of_nonneg (by linarith)]; exact not_lt.mpr h0

/-- `selly` on dust is a simulated sale of nothing. -/
theorem selly_eq_dust {w : World K} {dy : K} (h0 : 0 ≤ dy) (h1 : dy < EPS) (ex an expand r : Bool) :
    selly w dy ex an expand r = sellyCore w 0 false expand r := by
  unfold selly
  rw [if_neg (fun hh => absurd hh.1 (not_lt.mpr h0))]
  dsimp only
  have e : (if dy < 0 ∧ (!an) = true then 0 else dy) = dy := if_neg (fun hh => absurd hh.1 (not_lt.mpr h0))
  rw [e, if_pos]
  rw [abs_of_nonneg h0]; exact h1

end Carbon.UICurve
