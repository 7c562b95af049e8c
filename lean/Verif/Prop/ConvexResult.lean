import Verif.Tools.ConvexResult
import Verif.Prop.ConvexOpt
import Verif.Prop.TITable

/-!
# The result of the convex optimizer (C155)
-/

set_option linter.unusedSectionVars false

namespace Carbon

open CarbonPair (pyDiv)
open UICurve (pyDiv_ok)
open CPC (Sound)

namespace Opt

section
variable {K : Type} [Field K] [LinearOrder K] [IsStrictOrderedRing K] [PySqrt K]

/-! ## The values -/

theorem zip3 {α : Type} (f g : α → K) (l : List α) (a b : List K) (ha : a.length = l.length) (hb : b.length = l.length) :
    ((a.zip (l.map f)).map fun q => q.1 / q.2).zip ((b.zip (l.map g)).map fun q => q.1 / q.2) =
      (l.zip (a.zip b)).map fun r => (r.2.1 / f r.1, r.2.2 / g r.1) := by
  induction l generalizing a b with
  | nil => simp
  | cons c l ih =>
    cases a with
    | nil => simp at ha
    | cons u a =>
      cases b with
      | nil => simp at hb
      | cons v b =>
        simp only [List.map_cons, List.zip_cons_cons]
        rw [ih a b (by simpa using ha) (by simpa using hb)]

/-- C155: the reported values are those of the solver in units of the tokens, one pair for each curve; values of another number are refused,
and a solver that leaves no values gives a result without values. -/
theorem C155_values {s : SCC K} (hs : s.own.length = s.cc.curves.length) (r : Solved K) :
    (∀ dx dy, r.dx = some dx → r.dy = some dy → dx.length = s.cc.curves.length → dy.length = s.cc.curves.length →
      ∃ q vx vy, nofeesResult s r = .ok q ∧ q.curves = s.cc ∧ q.status = r.status ∧ q.outcome = r.outcome ∧
        q.dxvalues = some vx ∧ q.dyvalues = some vy ∧ vx.length = s.cc.curves.length ∧ vy.length = s.cc.curves.length ∧
        vx.zip vy = reported s dx dy ∧ q.lines = .ok (s.cc.curves.zip (reported s dx dy))) ∧
    (∀ dx dy, r.dx = some dx → r.dy = some dy → (dx.length ≠ s.cc.curves.length ∨ dy.length ≠ s.cc.curves.length) →
      nofeesResult s r = .error .value) ∧
    (r.dx = none → r.dy = none → ∃ q, nofeesResult s r = .ok q ∧ q.dxvalues = none ∧ q.dyvalues = none ∧
      q.status = r.status ∧ q.outcome = r.outcome ∧ q.curves = s.cc) := by
  have hl : (s.cc.curves.zip s.own).length = s.cc.curves.length := by simp [hs]
  refine ⟨fun dx dy ex ey hx hy => ?_, fun dx dy ex ey hne => ?_, fun ex ey => ?_⟩
  · have e : nofeesResult s r = .ok ⟨s.cc, r.status, r.outcome, ⟨some dx, .each ((s.cc.curves.zip s.own).map fun c => c.2 c.1.tknb)⟩,
        ⟨some dy, .each ((s.cc.curves.zip s.own).map fun c => c.2 c.1.tknq)⟩⟩ := by
      unfold nofeesResult ScaledVar.make
      rw [ex, ey]
      simp [hs, hx, hy, Py.ok_bind]
    have hz := zip3 (fun c : CPC K × (Str → K) => c.2 c.1.tknb) (fun c => c.2 c.1.tknq) (s.cc.curves.zip s.own) dx dy
      (by rw [hl, hx]) (by rw [hl, hy])
    refine ⟨_, _, _, e, rfl, rfl, rfl, rfl, rfl, by simp [hs, hx], by simp [hs, hy], hz, ?_⟩
    show Except.ok _ = _
    exact congrArg (fun z => Except.ok (s.cc.curves.zip z)) hz
  · unfold nofeesResult ScaledVar.make
    rw [ex, ey]
    by_cases hx : dx.length = s.cc.curves.length
    · have hy : dy.length ≠ s.cc.curves.length := by tauto
      simp [hs, hx, hy.symm, Py.ok_bind]
    · simp [hs, Ne.symm hx]
  · have e : nofeesResult s r = .ok ⟨s.cc, r.status, r.outcome, ⟨none, .each ((s.cc.curves.zip s.own).map fun c => c.2 c.1.tknb)⟩,
        ⟨none, .each ((s.cc.curves.zip s.own).map fun c => c.2 c.1.tknq)⟩⟩ := by
      unfold nofeesResult ScaledVar.make
      rw [ex, ey]
      rfl
    exact ⟨_, e, rfl, rfl, rfl, rfl, rfl⟩

/-! ## Errors -/

/-- C155: a result counts as an error unless the solver has found an optimum and has not raised; the text of an error names the status, after
what the solver has raised; and the adjusted curves are refused exactly for an error. -/
theorem C155_error (r : NofeesResult K) :
    (r.isError = false ↔ r.status = some "optimal".toList ∧ ∀ m, r.outcome ≠ .message m) ∧
    (r.error = none ↔ r.isError = false) ∧
    (∀ m, r.outcome = .message m → r.error = some (m ++ " [".toList ++ r.status.getD "None".toList ++ "]".toList)) ∧
    (∀ e, (∀ m, r.outcome ≠ .message m) → r.error = some e → e = r.status.getD "None".toList ∧ e ≠ "optimal".toList ∨ r.status = none) ∧
    (r.curvesNew = .error .assertion ↔ r.isError = true) := by
  have h1 : r.isError = false ↔ r.status = some "optimal".toList ∧ ∀ m, r.outcome ≠ .message m := by
    unfold NofeesResult.isError NofeesResult.isMessage
    generalize "optimal".toList = opt
    cases r.outcome <;> simp
  have hnone : r.error = none ↔ r.isError = false := by
    unfold NofeesResult.error
    cases r.isError
    · simp
    · simp only [not_true_eq_false, if_false]
      cases r.outcome <;> simp
  refine ⟨h1, hnone, fun m hm => ?_, fun e hm he => ?_, ?_⟩
  · have : r.isError = true := by
      unfold NofeesResult.isError NofeesResult.isMessage
      rw [hm, Bool.or_true]
    unfold NofeesResult.error NofeesResult.statusText
    rw [this, hm, if_neg (by simp)]
  · have hE : r.isError = true := by
      cases h : r.isError
      · rw [hnone.2 h] at he
        cases he
      · rfl
    unfold NofeesResult.error NofeesResult.statusText at he
    rw [hE, if_neg (by simp)] at he
    cases hs : r.status with
    | none => exact Or.inr rfl
    | some st =>
      left
      have hst : st ≠ "optimal".toList := by
        rintro rfl
        rw [h1.2 ⟨hs, hm⟩] at hE
        cases hE
      cases ho : r.outcome with
      | message m => exact absurd ho (hm m)
      | nothing =>
        rw [ho, hs] at he
        exact ⟨(Option.some.inj he).symm, by rw [← Option.some.inj he]; exact hst⟩
      | value v =>
        rw [ho, hs] at he
        exact ⟨(Option.some.inj he).symm, by rw [← Option.some.inj he]; exact hst⟩
  · unfold NofeesResult.curvesNew
    cases r.isError
    · simp only [Bool.false_eq_true, if_false, iff_false]
      cases r.dxvalues with
      | none => simp
      | some v =>
        dsimp only
        unfold adjustCurves
        cases executeAll (r.curves.curves.zip v) <;> simp
    · simp

/-- C155: without values there are no instructions and no table; both calls raise. -/
theorem C155_no_values (r : NofeesResult K) (h : r.dxvalues = none ∨ r.dyvalues = none) (inclk : Bool) :
    r.tradeInstructions = .error .type ∧ r.dxdydf inclk = .error .type := by
  have : r.lines = .error .type := by
    unfold NofeesResult.lines
    rcases h with h | h
    · rw [h]
    · rw [h]
      cases r.dxvalues <;> rfl
  constructor
  · unfold NofeesResult.tradeInstructions
    rw [this]
    rfl
  · unfold NofeesResult.dxdydf
    rw [this]
    rfl

/-- C155: without values of the base tokens there are no adjusted curves, which is not an error. -/
theorem C155_no_curves (r : NofeesResult K) (h : r.dxvalues = none) (hE : r.isError = false) : r.curvesNew = .ok none := by
  unfold NofeesResult.curvesNew
  rw [hE, h]
  rfl

/-- C155: a result is a number exactly if the solver has found a value, which then is the number. -/
theorem C155_float (r : NofeesResult K) :
    (∀ v, r.toFloat = .ok v ↔ r.outcome = .value v) ∧ (r.toFloat = .error .type ↔ r.outcome = .nothing) ∧
    (r.toFloat = .error .value ↔ ∃ m, r.outcome = .message m) := by
  unfold NofeesResult.toFloat
  cases r.outcome <;> simp

/-- C155: values are refused exactly if the scales or the tokens that come with them are of another number, and are else the quotients by the
scales, in their order. -/
theorem C155_scales (v : List K) (token : Option (List Str)) :
    (∀ l : List K, ScaledVar.make (some v) (.each l) token = .error .value ↔ l.length ≠ v.length ∨ ∃ t ∈ token, t.length ≠ v.length) ∧
    (∀ c : K, ScaledVar.make (some v) (.one c) token = .error .value ↔ ∃ t ∈ token, t.length ≠ v.length) ∧
    (∀ sc q, ScaledVar.make (some v) sc token = .ok q → ∃ w, q.value = some w ∧ w.length = v.length ∧
      ∀ i a, v[i]? = some a → w[i]? = some (match sc with | .one c => a / c | .each l => a / l.getD i 0)) := by
  refine ⟨fun l => ?_, fun c => ?_, fun sc q h => ?_⟩
  · unfold ScaledVar.make
    dsimp only
    by_cases h1 : l.length ≠ v.length
    · rw [if_pos h1]
      exact ⟨fun _ => Or.inl h1, fun _ => rfl⟩
    · rw [if_neg h1]
      by_cases h2 : ∃ t ∈ token, t.length ≠ v.length
      · rw [if_pos h2]
        exact ⟨fun _ => Or.inr h2, fun _ => rfl⟩
      · rw [if_neg h2]
        exact ⟨nofun, fun h => (h.elim h1 h2).elim⟩
  · unfold ScaledVar.make
    dsimp only
    by_cases h2 : ∃ t ∈ token, t.length ≠ v.length
    · rw [if_pos h2]
      exact ⟨fun _ => h2, fun _ => rfl⟩
    · rw [if_neg h2]
      exact ⟨nofun, fun h => (h2 h).elim⟩
  · unfold ScaledVar.make at h
    cases sc with
    | one c =>
      dsimp only at h
      split at h
      · cases h
      · cases h
        refine ⟨_, rfl, by simp, fun i a ha => by simp [ha]⟩
    | each l =>
      dsimp only at h
      split at h
      · cases h
      · rename_i hl
        split at h
        · cases h
        · cases h
          push Not at hl
          refine ⟨_, rfl, by simp [hl], fun i a ha => ?_⟩
          have hi : i < l.length := by
            rw [hl]
            exact (List.getElem?_eq_some_iff.mp ha).1
          have hz : (v.zip l)[i]? = some (a, l[i]) := List.getElem?_zip_eq_some.mpr ⟨ha, List.getElem?_eq_getElem hi⟩
          rw [List.getElem?_map, hz]
          simp [hi]

example : ScaledVar.make (some [3, 4]) (.each [2]) none = (.error .value : Py (ScaledVar ℚ)) :=
  ((C155_scales [3, 4] none).1 [2]).2 (Or.inl (by decide))

/-- C155: the table of the trades of a solution has a line for each curve, with the quotient of the product of the reserves after and before the
reported trade, and at the end a line with the total of each token over the reported trades. -/
theorem C155_table {s : SCC K} (hs : s.own.length = s.cc.curves.length) (r : Solved K) {dx dy : List K} (ex : r.dx = some dx)
    (ey : r.dy = some dy) (hx : dx.length = s.cc.curves.length) (hy : dy.length = s.cc.curves.length)
    (hne : s.cc.curves.zip (reported s dx dy) ≠ [])
    (h : ∀ c ∈ s.cc.curves, c.tknb ∉ dxdyNames false ∧ c.tknq ∉ dxdyNames false ∧ c.tknb ≠ c.tknq) :
    ∃ q, ∃ ts : List Str, nofeesResult s r = .ok q ∧ ts.Nodup ∧ (∀ t, t ∈ ts ↔ ∃ c ∈ (s.cc.curves.zip (reported s dx dy)), t = c.1.tknb ∨ t = c.1.tknq) ∧
      q.dxdydf = .ok ⟨((s.cc.curves.zip (reported s dx dy)).map fun r => .str (Cid.show r.1.cid)) ++ [.str "total".toList],
        ["pair".toList, "tknx".toList, "tkny".toList, "x".toList, "y".toList, "xa".toList, "ya".toList, "kk".toList] ++ ts,
        ((s.cc.curves.zip (reported s dx dy)).map fun r => [some (.str r.1.pair), some (.str r.1.tknb), some (.str r.1.tknq), some (.num r.1.x), some (.num r.1.y),
          some (.num r.1.xAct), some (.num r.1.yAct), some (.num ((r.1.x + r.2.1) * (r.1.y + r.2.2) / r.1.k))] ++
          ts.map fun c => (rowAmount r c).map .num) ++
        [List.replicate 8 none ++ ts.map fun c => some (.num
          ((((s.cc.curves.zip (reported s dx dy)).filter fun r => decide (r.1.tknb = c)).map fun r => r.2.1).sum +
            (((s.cc.curves.zip (reported s dx dy)).filter fun r => decide (r.1.tknq = c)).map fun r => r.2.2).sum))]⟩ := by
  obtain ⟨q, vx, vy, h1, h2, h3, h4, h5, h6, h7, h8, h9, h10⟩ := (C155_values hs r).1 dx dy ex ey hx hy
  obtain ⟨ts, k1, k2, k3⟩ := C139_dxdy hne fun r hr => h r.1 (List.of_mem_zip hr).1
  refine ⟨q, ts, h1, k1, k2, ?_⟩
  unfold NofeesResult.dxdydf
  rw [h10, Py.ok_bind]
  exact k3

end

/-! ## The adjusted curves -/

/-- A pool that accepts a trade is adjusted by what is paid in of its base token; it then is on its curve, and holds no more of its quote token
than after the reported trade, and as much only if that trade is on the curve. -/
theorem execute_allowed {c : CPC ℝ} (hs : Sound c) {t : ℝ × ℝ} (ht : Allowed c t) :
    ∃ d, c.execute (some t.1) none true = .ok d ∧ d.pair = c.pair ∧ d.cid ≠ none ∧ d.k = c.k ∧ d.x = c.x + t.1 ∧ d.x * d.y = c.k ∧
      d.xAct = c.xAct + t.1 ∧ d.yAct = c.yAct + (d.y - c.y) ∧ d.yAct ≤ c.yAct + t.2 ∧
      (d.yAct = c.yAct + t.2 ↔ (c.x + t.1) * (c.y + t.2) = c.k) := by
  obtain ⟨b, q, hp⟩ := hs.hpair
  have hx := ht.x
  have e : c.execute (some t.1) none true = .ok ⟨c.k, c.x + t.1, c.xAct + (c.x + t.1) - c.x, c.yAct + c.k / (c.x + t.1) - c.y, c.pair,
      some (.str (Cid.show c.cid ++ "-x".toList)), "default".toList⟩ := by
    unfold CPC.execute
    dsimp only
    rw [if_neg (by simp)]
    simp only [Option.getD_some]
    rw [pyDiv_ok hx.ne', Py.ok_bind]
    unfold CPC.executed
    rw [CPC.make_ok hx.ne' hp]
  have hk : c.k / (c.x + t.1) ≤ c.y + t.2 := by
    rw [div_le_iff₀ hx]
    have := ht.k
    linarith [mul_comm (c.x + t.1) (c.y + t.2)]
  refine ⟨_, e, rfl, by simp, rfl, rfl, ?_, by dsimp only; ring, ?_, ?_, ?_⟩
  · show (c.x + t.1) * (c.k / (c.x + t.1)) = c.k
    rw [mul_comm, div_mul_cancel₀ _ hx.ne']
  · show c.yAct + c.k / (c.x + t.1) - c.y = c.yAct + (c.k / (c.x + t.1) - c.y)
    ring
  · dsimp only
    linarith
  · dsimp only
    constructor
    · intro h
      have : c.k / (c.x + t.1) = c.y + t.2 := by linarith
      rw [← this, mul_comm, div_mul_cancel₀ _ hx.ne']
    · intro h
      have : c.k / (c.x + t.1) = c.y + t.2 := by rw [← h, mul_comm, mul_div_assoc, div_self hx.ne', mul_one]
      linarith

/-- What an adjusted curve `d` is for the curve `c` and the reported trade `t`. -/
structure Adjusted (c : CPC ℝ) (t : ℝ × ℝ) (d : CPC ℝ) : Prop where
  pair : d.pair = c.pair
  k : d.k = c.k
  x : d.x = c.x + t.1
  curve : d.x * d.y = c.k
  xAct : d.xAct = c.xAct + t.1
  yAct : d.yAct = c.yAct + (d.y - c.y)
  le : d.yAct ≤ c.yAct + t.2
  same : d.yAct = c.yAct + t.2 ↔ (c.x + t.1) * (c.y + t.2) = c.k

theorem executeAll_allowed (cs : List (CPC ℝ)) (w : List (ℝ × ℝ)) (hl : w.length = cs.length) (hs : ∀ c ∈ cs, Sound c)
    (hv : ∀ cv ∈ cs.zip w, Allowed cv.1 cv.2) :
    ∃ ds, executeAll (cs.zip (w.map Prod.fst)) = .ok ds ∧ ds.length = cs.length ∧ (∀ d ∈ ds, d.cid ≠ none) ∧
      ∀ (i : Nat) c t d, cs[i]? = some c → w[i]? = some t → ds[i]? = some d → Adjusted c t d := by
  induction cs generalizing w with
  | nil => exact ⟨[], by simp [executeAll], rfl, by simp, by simp⟩
  | cons c cs ih =>
    cases w with
    | nil => simp at hl
    | cons t w =>
      obtain ⟨ds, h1, h2, h3, h4⟩ := ih w (by simpa using hl) (fun e he => hs e (List.mem_cons_of_mem _ he))
        fun e he => hv e (by rw [List.zip_cons_cons]; exact List.mem_cons_of_mem _ he)
      obtain ⟨d, k1, k2, k3, k4, k5, k6, k7, k8, k9, k10⟩ := execute_allowed (hs c (by simp)) (hv (c, t) (by simp))
      refine ⟨d :: ds, ?_, by simp [h2], ?_, ?_⟩
      · unfold executeAll at h1 ⊢
        rw [List.map_cons, List.zip_cons_cons, List.mapM_cons]
        dsimp only
        rw [k1, Py.ok_bind, h1, Py.ok_bind]
        rfl
      · intro e he
        rcases List.mem_cons.1 he with rfl | he
        · exact k3
        · exact h3 e he
      · intro i c' t' d' hc ht hd
        cases i with
        | zero =>
          simp only [List.getElem?_cons_zero, Option.some.injEq] at hc ht hd
          subst hc ht hd
          exact ⟨k2, k4, k5, k6, k7, k8, k9, k10⟩
        | succ i =>
          simp only [List.getElem?_cons_succ] at hc ht hd
          exact h4 i c' t' d' hc ht hd

theorem zip_fst {vx vy : List ℝ} (h : vx.length = vy.length) : (vx.zip vy).map Prod.fst = vx := by
  rw [List.map_fst_zip]
  omega

/-- C155: for trades that the pools accept, the adjusted curves are the old ones with what is paid in of the base token, moved along their curves:
their quote reserves are at most those after the reported trades, and equal to them only for trades on the curves. -/
theorem C155_adjusted {s : SCC ℝ} {sc : Str → ℝ} (hu : Uniform s sc) (hs : ∀ c ∈ s.cc.curves, Sound c) {r : Solved ℝ} {dx dy : List ℝ}
    (ex : r.dx = some dx) (ey : r.dy = some dy) (hx : dx.length = s.cc.curves.length) (hy : dy.length = s.cc.curves.length)
    (hv : ∀ cv ∈ s.cc.curves.zip (reported s dx dy), Allowed cv.1 cv.2) (hst : r.status = some "optimal".toList)
    (hm : ∀ m, r.outcome ≠ .message m) :
    ∃ q dd, nofeesResult s r = .ok q ∧ q.curvesNew = .ok (some dd) ∧ dd.curves.length = s.cc.curves.length ∧
      ∀ (i : Nat) c t d, s.cc.curves[i]? = some c → (reported s dx dy)[i]? = some t → dd.curves[i]? = some d → Adjusted c t d := by
  have hown : s.own.length = s.cc.curves.length := by rw [hu.own]; simp
  obtain ⟨q, vx, vy, h1, h2, h3, h4, h5, h6, h7, h8, h9, h10⟩ := (C155_values hown r).1 dx dy ex ey hx hy
  have hf : (reported s dx dy).map Prod.fst = vx := by rw [← h9]; exact zip_fst (h7.trans h8.symm)
  obtain ⟨ds, k1, k2, k3, k4⟩ := executeAll_allowed s.cc.curves _ (reported_length hu hx hy) hs hv
  have hcur : (CC.ofCurves ds).curves = ds := CC.ofCurves_curves k3
  refine ⟨q, CC.ofCurves ds, h1, ?_, by rw [hcur, k2], by rw [hcur]; exact k4⟩
  have hE : q.isError = false := (C155_error q).1.2 ⟨h3 ▸ hst, h4 ▸ hm⟩
  unfold NofeesResult.curvesNew
  rw [hE, h5, h2]
  simp only [Bool.false_eq_true, if_false]
  unfold adjustCurves
  rw [← hf, k1]

/-! ## From the solution to the instructions -/

/-- C155: if the solver finds an optimum, and every pool trades the optimized token and is not left without it, then there is one instruction for
each pool that trades; the instructions bring the required amount of every constrained token, and of the optimized token the value of the
objective; and the adjusted curves hold what the reported trades leave. -/
theorem C155_solved_partial {s : SCC ℝ} {sc : Str → ℝ} (hu : Uniform s sc) (hs : ∀ c ∈ s.cc.curves, Sound c)
    (hd : ∀ c ∈ s.cc.curves, c.tknb ≠ c.tknq) {sfc : SFC ℝ} (hf : Fits s sfc) (hvar : ∀ a, sfc.get sfc.optVar ≠ .ok (.amount a))
    {r : Solved ℝ} {dx dy : List ℝ} (ex : r.dx = some dx) (ey : r.dy = some dy) (hst : r.status = some "optimal".toList)
    (hm : ∀ m, r.outcome ≠ .message m) :
    ∃ P, nofees s sfc = .ok P ∧ (P.Optimal dx dy →
      (∀ cv ∈ s.cc.curves.zip (reported s dx dy), (cv.1.tknb = sfc.optVar ∧ 0 < cv.1.xAct + cv.2.1) ∨
        (cv.1.tknq = sfc.optVar ∧ 0 < cv.1.yAct + cv.2.2)) →
      ∃ q ts dd, nofeesResult s r = .ok q ∧ q.isError = false ∧ q.tradeInstructions = .ok ts ∧ q.curvesNew = .ok (some dd) ∧
        ts.map TI.cid = ((s.cc.curves.zip (reported s dx dy)).filter fun cv => decide (cv.2 ≠ (0, 0))).map (fun cv => Cid.show cv.1.cid) ∧
        (∀ t ∈ sfc.tokens, ∀ a, sfc.get t = .ok (.amount a) → (ts.map fun ti => (ti.amountOf t).getD 0).sum = a) ∧
        (ts.map fun ti => (ti.amountOf sfc.optVar).getD 0).sum * sc sfc.optVar = P.objective dx dy ∧
        dd.curves.length = s.cc.curves.length ∧
        ∀ (i : Nat) c t d, s.cc.curves[i]? = some c → (reported s dx dy)[i]? = some t → dd.curves[i]? = some d →
          d.pair = c.pair ∧ d.k = c.k ∧ d.x = c.x + t.1 ∧ d.y = c.y + t.2 ∧ d.xAct = c.xAct + t.1 ∧ d.yAct = c.yAct + t.2) := by
  obtain ⟨P, p1, p2, p3⟩ := C130_program hu hs hf
  obtain ⟨P', o1, o2, -⟩ := C130_optimal hu hs hf
  rw [p1] at o1
  cases o1
  refine ⟨P, p1, fun hopt hleft => ?_⟩
  obtain ⟨hx, hy, hb⟩ := (o2 dx dy).1 hopt
  have hown : s.own.length = s.cc.curves.length := by rw [hu.own]; simp
  obtain ⟨q, vx, vy, h1, h2, h3, h4, h5, h6, h7, h8, h9, h10⟩ := (C155_values hown r).1 dx dy ex ey hx hy
  have hE : q.isError = false := (C155_error q).1.2 ⟨h3 ▸ hst, h4 ▸ hm⟩
  have hK : ∀ cv ∈ s.cc.curves.zip (reported s dx dy), (cv.1.x + cv.2.1) * (cv.1.y + cv.2.2) = cv.1.k := by
    rintro ⟨c, v⟩ hcv
    exact C130_boundary hb hvar hcv (hleft _ hcv)
  obtain ⟨ts, t1, t2, t3⟩ := instructions_ok s.cc.curves _ (reported_length hu hx hy) hs hd fun cv hcv => ⟨hb.allowed cv hcv, hK cv hcv⟩
  obtain ⟨q', dd, g1, g2, g3, g4⟩ := C155_adjusted hu hs ex ey hx hy hb.allowed hst hm
  rw [h1] at g1
  cases g1
  refine ⟨q, ts, dd, h1, hE, ?_, g2, t3, fun t ht a ha => ?_, ?_, g3, fun i c t d hc ht hdd => ?_⟩
  · unfold NofeesResult.tradeInstructions
    rw [h10, Py.ok_bind, t1]
  · rw [t2]
    exact hb.financed t ht a ha
  · rw [t2, p3 dx dy hx hy]
  · have A := g4 i c t d hc ht hdd
    have hk := hK (c, t) (List.mem_iff_getElem?.2 ⟨i, List.getElem?_zip_eq_some.2 ⟨hc, ht⟩⟩)
    have hya := A.same.2 hk
    refine ⟨A.pair, A.k, A.x, ?_, A.xAct, hya⟩
    have := A.yAct
    linarith

/-! ## Where it fails -/

/-- The two pools of the other examples, with the default scale. -/
def twoUnit : SCC ℚ := ⟨twoPools ℚ, [SCC.unit, SCC.unit], SCC.unit⟩

/-- C155: the instructions and the table do not look at the status. For a solution that the solver has not confirmed the result is an error and
the adjusted curves are refused, but the instructions are those of a solution. -/
theorem C155_unchecked_violated : ∃ (r : Solved ℚ) (q : NofeesResult ℚ), r.status = some "optimal_inaccurate".toList ∧
    nofeesResult twoUnit r = .ok q ∧ q.isError = true ∧ q.error = some "optimal_inaccurate".toList ∧ q.curvesNew = .error .assertion ∧
    q.tradeInstructions = .ok [⟨"c1".toList, "A".toList, 5, "B".toList, -10 / 3⟩, ⟨"c2".toList, "B".toList, 5 / 3, "A".toList, -5⟩] := by
  refine ⟨⟨some "optimal_inaccurate".toList, .value (-5 / 3), some [5, -5], some [-10 / 3, 5 / 3]⟩,
    ⟨twoPools ℚ, some "optimal_inaccurate".toList, .value (-5 / 3), ⟨some [5, -5], .each [1, 1]⟩, ⟨some [-10 / 3, 5 / 3], .each [1, 1]⟩⟩,
    rfl, ?_, ?_, ?_, ?_, ?_⟩
  · rfl
  · decide +kernel
  · decide +kernel
  · rfl
  · decide +kernel

/-- A pool for `A` and `B` at price 1, and three for `C` and `D` at the prices 1, 1/4 and 1. -/
noncomputable def apart4 : SCC ℝ := SCC.make [.plain ⟨100, 10, 10, 10, "A/B".toList, some (.str "c1".toList), []⟩,
  .plain ⟨100, 10, 10, 10, "C/D".toList, some (.str "c2".toList), []⟩, .plain ⟨100, 20, 20, 5, "C/D".toList, some (.str "c3".toList), []⟩,
  .plain ⟨100, 10, 10, 10, "C/D".toList, some (.str "c4".toList), []⟩]

/-- C155: at an optimum, confirmed by the solver, the instructions may be refused: with the constraints of an arbitrage, a solution may leave
what the pools without the optimized token could gain with one of them, which then receives both tokens; and the adjusted curves do not hold
what is reported. -/
theorem C155_refused_violated : ∃ sfc P dx dy, sfcOf apart4 [("A".toList, .optVar)] = .ok sfc ∧ nofees apart4 sfc = .ok P ∧ P.Optimal dx dy ∧
    ∃ q dd c d, nofeesResult apart4 ⟨some "optimal".toList, .value (P.objective dx dy), some dx, some dy⟩ = .ok q ∧ q.isError = false ∧
      q.tradeInstructions = .error .value ∧ q.curvesNew = .ok (some dd) ∧ apart4.cc.curves[3]? = some c ∧ dd.curves[3]? = some d ∧
      (reported apart4 dx dy)[3]? = some (1, 3 / 10) ∧ d.yAct < c.yAct ∧ c.yAct + 3 / 10 ≠ d.yAct := by
  have hc : apart4.cc.curves = [⟨100, 10, 10, 10, "A/B".toList, some (.str "c1".toList), []⟩,
    ⟨100, 10, 10, 10, "C/D".toList, some (.str "c2".toList), []⟩, ⟨100, 20, 20, 5, "C/D".toList, some (.str "c3".toList), []⟩,
    ⟨100, 10, 10, 10, "C/D".toList, some (.str "c4".toList), []⟩] := rfl
  have hu : Uniform apart4 SCC.unit := uniform_default _
  have htk : apart4.cc.tkns = ["A".toList, "C".toList, "C".toList, "C".toList, "B".toList, "D".toList, "D".toList, "D".toList] := by
    unfold CC.tkns
    rw [hc]
    rfl
  have hA : ∀ (k x xa ya : ℝ) (cid : Option Cid), CPC.tknb (⟨k, x, xa, ya, "A/B".toList, cid, []⟩ : CPC ℝ) = "A".toList ∧
      CPC.tknq (⟨k, x, xa, ya, "A/B".toList, cid, []⟩ : CPC ℝ) = "B".toList := by
    intro k x xa ya cid
    unfold CPC.tknb CPC.tknq
    dsimp only
    decide +kernel
  have hC : ∀ (k x xa ya : ℝ) (cid : Option Cid), CPC.tknb (⟨k, x, xa, ya, "C/D".toList, cid, []⟩ : CPC ℝ) = "C".toList ∧
      CPC.tknq (⟨k, x, xa, ya, "C/D".toList, cid, []⟩ : CPC ℝ) = "D".toList := by
    intro k x xa ya cid
    unfold CPC.tknb CPC.tknq
    dsimp only
    decide +kernel
  have hnet : ∀ t (a1 b1 a2 b2 a3 b3 a4 b4 : ℝ), net t apart4.cc.curves [(a1, b1), (a2, b2), (a3, b3), (a4, b4)] =
      (if "A".toList = t then a1 else 0) + (if "B".toList = t then b1 else 0) + ((if "C".toList = t then a2 else 0) +
        (if "D".toList = t then b2 else 0) + ((if "C".toList = t then a3 else 0) + (if "D".toList = t then b3 else 0) +
        ((if "C".toList = t then a4 else 0) + (if "D".toList = t then b4 else 0) + 0))) := by
    intro t a1 b1 a2 b2 a3 b3 a4 b4
    rw [hc]
    simp only [net, hA, hC]
  have hsound : ∀ c ∈ apart4.cc.curves, Sound c := by
    rw [hc]
    simp only [List.mem_cons, List.not_mem_nil, or_false, forall_eq_or_imp, forall_eq]
    have hAB : CarbonPair.unpack "A/B".toList = .ok ("A".toList, "B".toList) := by decide
    have hCD : CarbonPair.unpack "C/D".toList = .ok ("C".toList, "D".toList) := by decide
    refine ⟨⟨?_, ?_, ?_, ?_, ?_, ?_, _, _, hAB⟩, ⟨?_, ?_, ?_, ?_, ?_, ?_, _, _, hCD⟩, ⟨?_, ?_, ?_, ?_, ?_, ?_, _, _, hCD⟩,
      ⟨?_, ?_, ?_, ?_, ?_, ?_, _, _, hCD⟩⟩ <;> norm_num [CPC.y]
  obtain ⟨sfc, hsfc⟩ : ∃ x : SFC ℝ, x = ⟨[("A".toList, .optVar)], apart4.cc.tkns, "A".toList⟩ := ⟨_, rfl⟩
  have hmk : sfcOf apart4 [("A".toList, .optVar)] = .ok sfc := by
    rw [hsfc]
    unfold sfcOf SFC.make
    rw [htk]
    rfl
  have hget : ∀ t ∈ sfc.tokens, t ≠ "A".toList → sfc.get t = .ok (.amount 0) := by
    intro t ht hne
    unfold SFC.get
    rw [if_neg (not_not.2 ht), hsfc]
    unfold dictGet dictGet
    rw [if_neg (Ne.symm hne)]
    rfl
  have hgetA : sfc.get "A".toList = .ok .optVar := by
    rw [hsfc]
    unfold SFC.get dictGet
    rw [htk]
    simp
  have hfit : Fits apart4 sfc := by
    rw [hsfc]
    refine ⟨?_, fun t ht => ht⟩
    show _ ∈ apart4.cc.tkns
    rw [htk]
    simp
  have hbest : Best apart4 sfc [(0, 0), (1, -9 / 10), (-2, 3 / 5), (1, 3 / 10)] := by
    refine ⟨by rw [hc]; rfl, ?_, ?_, ?_⟩
    · rw [hc]
      simp only [List.zip_cons_cons, List.zip_nil_right, List.mem_cons, List.not_mem_nil, or_false, forall_eq_or_imp, forall_eq]
      refine ⟨⟨?_, ?_, ?_, ?_, ?_⟩, ⟨?_, ?_, ?_, ?_, ?_⟩, ⟨?_, ?_, ?_, ?_, ?_⟩, ⟨?_, ?_, ?_, ?_, ?_⟩⟩ <;> norm_num [CPC.y]
    · intro t ht v hv
      by_cases hne : t = "A".toList
      · rw [hne, hgetA] at hv
        cases hv
      · rw [hget t ht hne] at hv
        injection hv with hv
        injection hv with hv
        rw [hnet, ← hv, if_neg (Ne.symm hne)]
        by_cases h1 : "B".toList = t <;> by_cases h2 : "C".toList = t <;> by_cases h3 : "D".toList = t <;>
          simp only [h1, h2, h3, if_true, if_false] <;> norm_num
    · intro w hw ha hn
      rw [hc] at hw
      obtain ⟨⟨a1, b1⟩, w, rfl⟩ := List.exists_cons_of_length_eq_add_one hw
      obtain ⟨⟨a2, b2⟩, ⟨a3, b3⟩, ⟨a4, b4⟩, rfl⟩ := List.length_eq_three.1 (by simpa using hw)
      have hmB : "B".toList ∈ sfc.tokens := by
        rw [hsfc]
        show _ ∈ apart4.cc.tkns
        rw [htk]
        simp
      have hB := hn "B".toList hmB 0 (hget _ hmB (by decide))
      rw [hnet] at hB
      have e1 : b1 = 0 := by
        simpa [show ("A".toList : Str) ≠ "B".toList by decide, show ("C".toList : Str) ≠ "B".toList by decide,
          show ("D".toList : Str) ≠ "B".toList by decide] using hB
      have hk := (ha (⟨100, 10, 10, 10, "A/B".toList, some (.str "c1".toList), []⟩, a1, b1) (by rw [hc]; simp)).k
      rw [e1] at hk
      norm_num [CPC.y] at hk
      rw [show sfc.optVar = "A".toList by rw [hsfc], hnet, hnet]
      simp
      linarith
  obtain ⟨P, p1, p2, p3⟩ := C130_optimal hu hsound hfit
  obtain ⟨dx, dy, ho, hr⟩ := p3 _ hbest
  obtain ⟨hx, hy, -⟩ := (p2 dx dy).1 ho
  have hown : apart4.own.length = apart4.cc.curves.length := by rw [hu.own]; simp
  obtain ⟨q, vx, vy, h1, h2, h3, h4, h5, h6, h7, h8, h9, h10⟩ :=
    (C155_values hown ⟨some "optimal".toList, .value (P.objective dx dy), some dx, some dy⟩).1 dx dy rfl rfl hx hy
  obtain ⟨q', dd, g1, g2, g3, g4⟩ := C155_adjusted hu hsound (r := ⟨some "optimal".toList, .value (P.objective dx dy), some dx, some dy⟩)
    rfl rfl hx hy (by rw [hr]; exact hbest.allowed) rfl (by simp)
  rw [h1] at g1
  cases g1
  rw [hr] at h10 g4
  have hlen : 3 < dd.curves.length := by rw [g3, hc]; simp
  have A := g4 3 _ _ dd.curves[3] (by rw [hc]; rfl) rfl (List.getElem?_eq_getElem hlen)
  have hyd : dd.curves[3].yAct = 10 + 100 / 11 - 10 := by
    have e := A.yAct
    have ek := A.k
    have ex := A.x
    unfold CPC.y at e
    rw [ek, ex] at e
    dsimp only at e
    rw [e]
    norm_num
  refine ⟨sfc, P, dx, dy, hmk, p1, ho, q, dd, ⟨100, 10, 10, 10, "C/D".toList, some (.str "c4".toList), []⟩, dd.curves[3], h1,
    (C155_error q).1.2 ⟨h3, by rw [h4]; simp⟩, ?_, g2, by rw [hc]; rfl, List.getElem?_eq_getElem hlen, by rw [hr]; rfl, ?_, ?_⟩
  · unfold NofeesResult.tradeInstructions
    rw [h10, Py.ok_bind, hc]
    have n1 : ("C".toList : Str) ≠ "D".toList := by decide
    simp only [List.zip_cons_cons, List.zip_nil_right, instructions, hA, hC]
    norm_num [TI.new, TI.make, n1, posNegEps, Py.ok_bind]
  · rw [hyd]
    norm_num
  · rw [hyd]
    norm_num

/-! ## Example -/

/-- The theorem applies to the two pools: the instructions for the solution bring five thirds of `B` and leave the pools with as much `A`. -/
example : ∃ dx dy q ts, nofeesResult twoScaled ⟨some "optimal".toList, .value (-5 / 3), some dx, some dy⟩ = .ok q ∧
    q.tradeInstructions = .ok ts ∧ ts.map TI.cid = ["c1".toList, "c2".toList] ∧
    (ts.map fun ti => (ti.amountOf "A".toList).getD 0).sum = 0 ∧ (ts.map fun ti => (ti.amountOf "B".toList).getD 0).sum = -5 / 3 := by
  obtain ⟨sfc, P, h1, h2, ⟨dx, dy, h3, h4⟩, h5⟩ := twoScaled_solution
  have hr := h5 dx dy h3
  have hpos : ∀ t, 0 < tenA t := by
    intro t
    unfold tenA
    split <;> norm_num
  have hu : Uniform twoScaled tenA := uniform_make _ hpos
  have hcc : twoScaled.cc = twoPools ℝ := rfl
  have htk : twoScaled.cc.tkns = ["A".toList, "A".toList, "B".toList, "B".toList] := by
    unfold CC.tkns
    rw [hcc, twoPools_curves]
    rfl
  have hsfc : sfc = ⟨[("B".toList, .pays)], twoScaled.cc.tkns, "B".toList⟩ := by
    unfold sfcOf SFC.make at h1
    rw [htk] at h1
    rw [htk]
    exact (Except.ok.inj h1).symm
  have hA : ∀ (k x xa ya : ℝ) (cid : Option Cid), CPC.tknb (⟨k, x, xa, ya, "A/B".toList, cid, []⟩ : CPC ℝ) = "A".toList ∧
      CPC.tknq (⟨k, x, xa, ya, "A/B".toList, cid, []⟩ : CPC ℝ) = "B".toList := by
    intro k x xa ya cid
    unfold CPC.tknb CPC.tknq
    dsimp only
    decide +kernel
  have hBA : ("A".toList : Str) ≠ "B".toList := by decide
  have hv : sfc.optVar = "B".toList := by rw [hsfc]
  have hget : sfc.get "B".toList = .ok .pays := by
    rw [hsfc]
    unfold SFC.get dictGet
    rw [htk]
    simp
  have hgetA : sfc.get "A".toList = .ok (.amount 0) := by
    rw [hsfc]
    unfold SFC.get dictGet
    rw [htk]
    simp [dictGet]
  have hmA : "A".toList ∈ sfc.tokens := by
    rw [hsfc]
    show _ ∈ twoScaled.cc.tkns
    rw [htk]
    simp
  obtain ⟨P', p1, p2⟩ := C155_solved_partial hu (by rw [hcc]; exact twoPools_input.sound) (by
    rw [hcc, twoPools_curves]
    simp only [List.mem_cons, List.not_mem_nil, or_false, forall_eq_or_imp, forall_eq, hA]
    exact ⟨hBA, hBA⟩) (sfcOf_fits h1).1 (by rw [hv, hget]; simp)
    (r := ⟨some "optimal".toList, .value (-5 / 3), some dx, some dy⟩) rfl rfl rfl (by simp)
  rw [h2] at p1
  cases p1
  obtain ⟨q, ts, dd, k1, k2, k3, k4, k5, k6, k7, -⟩ := p2 h3 (by
    rw [hr, hcc, twoPools_curves, hv]
    simp only [List.zip_cons_cons, List.zip_nil_right, List.mem_cons, List.not_mem_nil, or_false, forall_eq_or_imp, forall_eq, hA]
    norm_num)
  refine ⟨dx, dy, q, ts, k1, k3, ?_, k6 _ hmA 0 hgetA, ?_⟩
  · rw [k5, hr, hcc, twoPools_curves]
    norm_num [Cid.show]
  · rw [hv, h4] at k7
    have : tenA "B".toList = 1 := by unfold tenA; rw [if_neg (Ne.symm hBA)]
    rw [this, mul_one] at k7
    exact k7

end Opt

end Carbon
