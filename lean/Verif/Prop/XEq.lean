import Verif.Prop.PaperLemmas

/-!
# Calculating with equations (C166)
-/

namespace Carbon.Paper

namespace Ex

theorem eval_subs_eq {ρ : Symb → ℝ} {old new : Ex} (h : old.eval ρ = new.eval ρ) (e : Ex) : (e.subs old new).eval ρ = e.eval ρ := by
  have key : ∀ e : Ex, (if e = old then new else e).eval ρ = e.eval ρ := by
    intro e
    split_ifs with he
    · rw [he, h]
    · rfl
  induction e with
  | v s => unfold subs; exact key _
  | n c => unfold subs; exact key _
  | neg a ih => unfold subs; split_ifs with he; · rw [he, h]
                · simp only [eval, ih]
  | add a b iha ihb => unfold subs; split_ifs with he; · rw [he, h]
                       · simp only [eval, iha, ihb]
  | sub a b iha ihb => unfold subs; split_ifs with he; · rw [he, h]
                       · simp only [eval, iha, ihb]
  | mul a b iha ihb => unfold subs; split_ifs with he; · rw [he, h]
                       · simp only [eval, iha, ihb]
  | div a b iha ihb => unfold subs; split_ifs with he; · rw [he, h]
                       · simp only [eval, iha, ihb]
  | pow a m ih => unfold subs; split_ifs with he; · rw [he, h]
                  · simp only [eval, ih]
  | sqrt a ih => unfold subs; split_ifs with he; · rw [he, h]
                 · simp only [eval, ih]

theorem eval_subs_var (ρ : Symb → ℝ) (s : Symb) (t : Ex) (e : Ex) : (e.subs (v s) t).eval ρ = e.eval (Function.update ρ s (t.eval ρ)) := by
  induction e with
  | v s' =>
    unfold subs
    by_cases hs : s' = s
    · subst hs; simp [eval]
    · simp [eval, hs]
  | n c => simp [subs, eval]
  | neg a ih => simp [subs, eval, ih]
  | add a b iha ihb => simp [subs, eval, iha, ihb]
  | sub a b iha ihb => simp [subs, eval, iha, ihb]
  | mul a b iha ihb => simp [subs, eval, iha, ihb]
  | div a b iha ihb => simp [subs, eval, iha, ihb]
  | pow a m ih => simp [subs, eval, ih]
  | sqrt a ih => simp [subs, eval, ih]

/-- The symbol occurs in the expression. -/
def occurs (s : Symb) : Ex → Prop
  | v s' => s' = s
  | n _ => False
  | neg a => occurs s a
  | add a b => occurs s a ∨ occurs s b
  | sub a b => occurs s a ∨ occurs s b
  | mul a b => occurs s a ∨ occurs s b
  | div a b => occurs s a ∨ occurs s b
  | pow a _ => occurs s a
  | sqrt a => occurs s a

theorem eval_update {s : Symb} {e : Ex} (h : ¬ e.occurs s) (ρ : Symb → ℝ) (r : ℝ) : e.eval (Function.update ρ s r) = e.eval ρ := by
  induction e with
  | v s' => simp only [occurs] at h; simp [eval, h]
  | n c => rfl
  | neg a ih => simp only [occurs] at h; simp [eval, ih h]
  | add a b iha ihb => simp only [occurs, not_or] at h; simp [eval, iha h.1, ihb h.2]
  | sub a b iha ihb => simp only [occurs, not_or] at h; simp [eval, iha h.1, ihb h.2]
  | mul a b iha ihb => simp only [occurs, not_or] at h; simp [eval, iha h.1, ihb h.2]
  | div a b iha ihb => simp only [occurs, not_or] at h; simp [eval, iha h.1, ihb h.2]
  | pow a m ih => simp only [occurs] at h; simp [eval, ih h]
  | sqrt a ih => simp only [occurs] at h; simp [eval, ih h]

end Ex

/-- Substituting a definition (an equation whose left-hand side is a symbol) eliminates the symbol: the result holds for some value of the
symbol or for all of them alike, namely if the equation holds for the value that the definition gives. -/
theorem C166_eliminate (e : XEq) (s : Symb) (t : Ex) (ht : ¬ t.occurs s) (ρ : Symb → ℝ) (r : ℝ) :
    (e.subsEq ⟨.v s, t⟩).holds (Function.update ρ s r) ↔ ∃ q, (⟨.v s, t⟩ : XEq).holds (Function.update ρ s q) ∧ e.holds (Function.update ρ s q) := by
  have h1 : (e.subsEq ⟨.v s, t⟩).holds (Function.update ρ s r) ↔ e.holds (Function.update ρ s (t.eval ρ)) := by
    unfold XEq.holds XEq.subsEq XEq.subs
    simp only [Ex.eval_subs_var, Function.update_idem, Ex.eval_update ht]
  rw [h1]
  constructor
  · intro h
    refine ⟨t.eval ρ, ?_, h⟩
    simp [XEq.holds, Ex.eval, Ex.eval_update ht]
  · rintro ⟨q, hq, h⟩
    simp only [XEq.holds, Ex.eval, Ex.eval_update ht, Function.update_self] at hq
    rw [← hq]
    exact h

/-- Where the substituted equation holds, the result says what the equation said; this includes substitutions of whole expressions. -/
theorem C166_subs (e f : XEq) (ρ : Symb → ℝ) (hf : f.holds ρ) : (e.subsEq f).holds ρ ↔ e.holds ρ := by
  unfold XEq.holds XEq.subsEq XEq.subs
  simp only [Ex.eval_subs_eq hf]

/-- Every operation on valid equations gives a valid equation. -/
theorem C166_sound (e f : XEq) (o : Ex) (m : ℕ) (ρ : Symb → ℝ) (he : e.holds ρ) (hf : f.holds ρ) :
    (e.add f).holds ρ ∧ (e.addS o).holds ρ ∧ (e.sub f).holds ρ ∧ (e.subS o).holds ρ ∧ (e.rsubS o).holds ρ ∧ (e.mul f).holds ρ ∧ (e.mulS o).holds ρ ∧
    (e.div f).holds ρ ∧ (e.divS o).holds ρ ∧ (e.rdivS o).holds ρ ∧ (e.powS m).holds ρ ∧ e.invert.holds ρ ∧ (e.rsub f).holds ρ ∧ (e.rdiv f).holds ρ := by
  unfold XEq.holds at he hf
  ev [XEq.add, XEq.addS, XEq.sub, XEq.subS, XEq.rsubS, XEq.mul, XEq.mulS, XEq.div, XEq.divS, XEq.rdivS, XEq.powS, XEq.invert, XEq.rsub, XEq.rdiv, he, hf]

/-- Which operations lose nothing. -/
theorem C166_equivalent (e f : XEq) (o : Ex) (ρ : Symb → ℝ) :
    (e.neg.holds ρ ↔ e.holds ρ) ∧ (e.swap.holds ρ ↔ e.holds ρ) ∧ (e.simplify0.holds ρ ↔ e.holds ρ) ∧ (e.invert.holds ρ ↔ e.holds ρ) ∧
    ((e.addS o).holds ρ ↔ e.holds ρ) ∧ ((e.subS o).holds ρ ↔ e.holds ρ) ∧ ((e.rsubS o).holds ρ ↔ e.holds ρ) ∧
    (o.eval ρ ≠ 0 → ((e.mulS o).holds ρ ↔ e.holds ρ) ∧ ((e.divS o).holds ρ ↔ e.holds ρ) ∧ ((e.rdivS o).holds ρ ↔ e.holds ρ)) ∧
    (f.holds ρ → ((e.add f).holds ρ ↔ e.holds ρ) ∧ ((e.sub f).holds ρ ↔ e.holds ρ)) ∧
    (0 ≤ e.lhs.eval ρ → 0 ≤ e.rhs.eval ρ → ∀ m, m ≠ 0 → ((e.powS m).holds ρ ↔ e.holds ρ)) := by
  refine ⟨?_, ?_, ?_, ?_, ?_, ?_, ?_, fun h => ⟨?_, ?_, ?_⟩, fun h => ⟨?_, ?_⟩, fun h1 h2 m hm => ?_⟩
  · ev [XEq.neg]
  · unfold XEq.holds XEq.swap; exact eq_comm
  · ev [XEq.simplify0, sub_eq_zero]
  · ev [XEq.invert, XEq.rdivS]
  · ev [XEq.addS]
  · ev [XEq.subS]
  · ev [XEq.rsubS]
  · ev [XEq.mulS, h]
  · ev [XEq.divS, div_left_inj' h]
  · ev [XEq.rdivS, div_eq_mul_inv, h]
  · unfold XEq.holds at h
    ev [XEq.add, h]
  · unfold XEq.holds at h
    ev [XEq.sub, h]
  · ev [XEq.powS]
    exact pow_left_inj₀ h1 h2 hm

/-- Multiplication by an expression that is zero and squaring lose the equation. -/
theorem C166_lossy_violated : ∃ (e : XEq) (o : Ex) (ρ : Symb → ℝ), ¬ e.holds ρ ∧ (e.mulS o).holds ρ ∧ (e.powS 2).holds ρ := by
  refine ⟨⟨.v .x, .v .y⟩, .v .P, fun s => match s with | .x => 1 | .y => -1 | _ => 0, ?_⟩
  ev [XEq.mulS, XEq.powS]
  norm_num

/-- A plain equation divided by an extended one gives the quotient the wrong way round, a plain equation minus an extended one does not. -/
theorem C166_quotient_violated (e o : XEq) (ρ : Symb → ℝ) :
    (e.rdiv o).lhs.eval ρ = e.lhs.eval ρ / o.lhs.eval ρ ∧ ((e.rdiv o).lhs.eval ρ = o.lhs.eval ρ / e.lhs.eval ρ ↔ e.lhs.eval ρ ^ 2 = o.lhs.eval ρ ^ 2 ∨
      e.lhs.eval ρ = 0 ∨ o.lhs.eval ρ = 0) ∧
    (e.rsub o).lhs.eval ρ = o.lhs.eval ρ - e.lhs.eval ρ := by
  refine ⟨by ev [XEq.rdiv], ?_, by ev [XEq.rsub]; ring⟩
  ev [XEq.rdiv]
  by_cases h1 : e.lhs.eval ρ = 0
  · simp [h1]
  · by_cases h2 : o.lhs.eval ρ = 0
    · simp [h2]
    · rw [div_eq_div_iff h2 h1]
      simp only [h1, h2, or_false]
      constructor <;> intro h <;> linarith [sq (e.lhs.eval ρ), sq (o.lhs.eval ρ)]

/-- The hypotheses are met: the definition of `Px` in the one of `B` (CarbonCalculations.py:272) and a state that satisfies both. -/
example : (BDE.subsEq PxDE).rhs = .sqrt ((Symb.P : Ex) * Symb.Q) ∧ PxDE.holds (fun _ => 1) ∧ BDE.holds (fun _ => 1) := by
  refine ⟨by decide, ?_, ?_⟩
  · ev [PxDE]
  · ev [BDE]

end Carbon.Paper
