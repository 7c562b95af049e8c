import Verif.Tools.ConvexOpt
import Verif.Prop.Margp

/-!
# The convex optimizer (C130): what its program means, that its solutions are those of the marginal price optimizer, and where it fails
-/

set_option linter.unusedSectionVars false

namespace Carbon

open CarbonPair (pyDiv)
open UICurve (pyDiv_ok)
open CPC (Sound)

namespace Opt

/-- All curves of a container use the same scale, with positive numbers. -/
structure Uniform (s : SCC ℝ) (sc : Str → ℝ) : Prop where
  own : s.own = List.replicate s.cc.curves.length sc
  pos : ∀ t, 0 < sc t

theorem uniform_make (ws : List (Wrapped ℝ)) {sc : Str → ℝ} (h : ∀ t, 0 < sc t) : Uniform (SCC.make ws (some sc)) sc := ⟨rfl, h⟩

theorem uniform_default (ws : List (Wrapped ℝ)) : Uniform (SCC.make ws) SCC.unit := ⟨rfl, fun _ => one_pos⟩

/-- Adding curves to a container with the default scale keeps it uniform. -/
theorem uniform_add {s : SCC ℝ} (h : Uniform s SCC.unit) (w : Wrapped ℝ) : Uniform (s.add w) SCC.unit := by
  refine ⟨?_, h.pos⟩
  show s.own ++ [SCC.unit] = List.replicate (s.cc.add w).curves.length SCC.unit
  have : (s.cc.add w).curves.length = s.cc.curves.length + 1 := by
    unfold CC.add
    simp
  rw [this, h.own, List.replicate_succ']

/-! ## Sums over positions -/

theorem positions_sum {α : Type} (f : α → Bool) (D : List ℝ) (l : List α) (d : List ℝ) (n : Nat) (h : D.drop n = d)
    (hl : d.length = l.length) :
    ((CC.positions f l n).map fun i => D.getD i 0).sum = ((l.zip d).map fun av => if f av.1 then av.2 else 0).sum := by
  induction l generalizing d n with
  | nil => simp [CC.positions]
  | cons a l ih =>
    cases d with
    | nil => simp at hl
    | cons v d =>
      have hd : D.drop (n + 1) = d := by
        rw [← List.drop_drop, h]
        rfl
      have hv : D.getD n 0 = v := by
        have : (D.drop n)[0]? = some v := by rw [h]; rfl
        rw [List.getElem?_drop] at this
        rw [List.getD_eq_getElem?_getD]
        simpa using congrArg (fun o => o.getD 0) this
      have := ih d (n + 1) hd (by simpa using hl)
      unfold CC.positions
      rw [List.zip_cons_cons, List.map_cons, List.sum_cons, ← this]
      split
      · rw [List.map_cons, List.sum_cons, hv]
      · rw [zero_add]

/-- The reported trades of a container with one scale. -/
theorem reported_eq {s : SCC ℝ} {sc : Str → ℝ} (h : Uniform s sc) (dx dy : List ℝ) :
    reported s dx dy = (s.cc.curves.zip (dx.zip dy)).map fun r => (r.2.1 / sc r.1.tknb, r.2.2 / sc r.1.tknq) := by
  unfold reported
  rw [h.own]
  have : ∀ (l : List (CPC ℝ)) (d : List (ℝ × ℝ)), ((l.zip (List.replicate l.length sc)).zip d).map
      (fun r => (r.2.1 / r.1.2 r.1.1.tknb, r.2.2 / r.1.2 r.1.1.tknq)) =
      (l.zip d).map fun r => (r.2.1 / sc r.1.tknb, r.2.2 / sc r.1.tknq) := by
    intro l
    induction l with
    | nil => intro d; rfl
    | cons a l ih =>
      intro d
      cases d with
      | nil => rfl
      | cons v d =>
        rw [List.length_cons, List.replicate_succ, List.zip_cons_cons, List.zip_cons_cons, List.map_cons, ih]
        rfl
  exact this _ _

theorem reported_length {s : SCC ℝ} {sc : Str → ℝ} (h : Uniform s sc) {dx dy : List ℝ} (hx : dx.length = s.cc.curves.length)
    (hy : dy.length = s.cc.curves.length) : (reported s dx dy).length = s.cc.curves.length := by
  rw [reported_eq h]
  simp [hx, hy]

theorem flow_net {s : SCC ℝ} {sc : Str → ℝ} (h : Uniform s sc) {dx dy : List ℝ} (hx : dx.length = s.cc.curves.length)
    (hy : dy.length = s.cc.curves.length) (t : Str) :
    flow (s.cc.tokenEntry t) dx dy = net t s.cc.curves (reported s dx dy) * sc t := by
  unfold flow CC.tokenEntry
  dsimp only
  rw [positions_sum _ dx _ dx 0 rfl hx, positions_sum _ dy _ dy 0 rfl hy, reported_eq h]
  generalize s.cc.curves = cs at hx hy
  have ht := (h.pos t).ne'
  induction cs generalizing dx dy with
  | nil => simp [net]
  | cons c cs ih =>
    cases dx with
    | nil => simp at hx
    | cons a dx =>
      cases dy with
      | nil => simp at hy
      | cons b dy =>
        have := ih (dx := dx) (dy := dy) (by simpa using hx) (by simpa using hy)
        simp only [List.zip_cons_cons, List.map_cons, List.sum_cons, net, decide_eq_true_eq, add_mul] at this ⊢
        rw [← this]
        have e1 : (if c.tknb = t then a / sc c.tknb else 0) * sc t = if c.tknb = t then a else 0 := by
          split
          · next e => rw [e, div_mul_cancel₀ _ ht]
          · simp
        have e2 : (if c.tknq = t then b / sc c.tknq else 0) * sc t = if c.tknq = t then b else 0 := by
          split
          · next e => rw [e, div_mul_cancel₀ _ ht]
          · simp
        rw [e1, e2]
        ring

/-! ## The constraints of one curve -/

/-- The pool does not lose value along its curve. -/
structure OnCurve (c : CPC ℝ) (v : ℝ × ℝ) : Prop where
  x : 0 < c.x + v.1
  y : 0 < c.y + v.2
  k : c.k ≤ (c.x + v.1) * (c.y + v.2)

theorem allowed_iff {c : CPC ℝ} {v : ℝ × ℝ} : Allowed c v ↔ OnCurve c v ∧ 0 ≤ c.xAct + v.1 ∧ 0 ≤ c.yAct + v.2 :=
  ⟨fun h => ⟨⟨h.x, h.y, h.k⟩, h.xa, h.ya⟩, fun h => ⟨h.1.x, h.1.y, h.1.k, h.2.1, h.2.2⟩⟩

theorem curveConstr_iff {c : CPC ℝ} (hs : Sound c) (sc : Str → ℝ) (i : Nat) (dx dy : List ℝ) :
    curveConstr c sc i dx dy ↔ OnCurve c (dx.getD i 0 / sc c.tknb, dy.getD i 0 / sc c.tknq) := by
  unfold curveConstr
  dsimp only
  have hk := hs.hk
  constructor
  · rintro ⟨h1, h2, h3⟩
    have h3 : c.k ≤ (c.x + dx.getD i 0 / sc c.tknb) * (c.y + dy.getD i 0 / sc c.tknq) :=
      (Real.sqrt_le_sqrt_iff (mul_nonneg h1 h2)).1 h3
    have h4 : 0 < (c.x + dx.getD i 0 / sc c.tknb) * (c.y + dy.getD i 0 / sc c.tknq) := lt_of_lt_of_le hk h3
    refine ⟨lt_of_le_of_ne h1 fun e => ?_, lt_of_le_of_ne h2 fun e => ?_, h3⟩
    · rw [← e, zero_mul] at h4
      exact absurd h4 (lt_irrefl 0)
    · rw [← e, mul_zero] at h4
      exact absurd h4 (lt_irrefl 0)
  · rintro ⟨h1, h2, h3⟩
    exact ⟨h1.le, h2.le, (Real.sqrt_le_sqrt_iff (mul_nonneg h1.le h2.le)).2 h3⟩

theorem minConstr_iff {c : CPC ℝ} (sc : Str → ℝ) (i : Nat) (dx dy : List ℝ) :
    minConstr c sc i dx dy ↔ 0 ≤ c.xAct + dx.getD i 0 / sc c.tknb ∧ 0 ≤ c.yAct + dy.getD i 0 / sc c.tknq := by
  unfold minConstr
  constructor <;> rintro ⟨h1, h2⟩ <;> constructor <;> linarith

theorem dxMax_ok {c : CPC ℝ} (hs : Sound c) : c.dxMax = .ok (if c.yAct < c.y then some (c.k / (c.y - c.yAct) - c.x) else none) := by
  unfold CPC.dxMax
  split
  · next h =>
    have h0 : 0 < c.y - c.yAct := by linarith
    have hm : c.xMax = some (c.k / (c.y - c.yAct)) := by
      unfold CPC.xMax CPC.yMin
      rw [if_pos h0]
    have hx : c.xMin ≤ c.k / (c.y - c.yAct) := by
      have : c.xMin ≤ c.x := by unfold CPC.xMin; linarith [hs.hxa]
      refine this.trans ?_
      rw [le_div_iff₀ h0, ← hs.xy]
      exact mul_le_mul_of_nonneg_left (by linarith [hs.hya]) hs.hx.le
    unfold CPC.dxfromdy CPC.xfromy
    rw [← sub_eq_add_neg, pyDiv_ok h0.ne', Py.ok_bind, hm]
    have hr : CPC.inrange (c.k / (c.y - c.yAct)) c.xMin (some (c.k / (c.y - c.yAct))) = true := by
      unfold CPC.inrange
      simp [not_lt.2 hx]
    simp only [Bool.false_eq_true, if_false, hr, Py.ok_bind, Bool.true_eq_false]
  · rfl

theorem dyMax_ok {c : CPC ℝ} (hs : Sound c) : c.dyMax = .ok (if c.xAct < c.x then some (c.k / (c.x - c.xAct) - c.y) else none) := by
  unfold CPC.dyMax
  split
  · next h =>
    have h0 : 0 < c.x - c.xAct := by linarith
    have hm : c.yMax = some (c.k / (c.x - c.xAct)) := by
      unfold CPC.yMax CPC.xMin
      rw [if_pos h0]
    have hx : c.yMin ≤ c.k / (c.x - c.xAct) := by
      have : c.yMin ≤ c.y := by unfold CPC.yMin; linarith [hs.hya]
      refine this.trans ?_
      rw [le_div_iff₀ h0, ← hs.xy, mul_comm]
      exact mul_le_mul_of_nonneg_right (by linarith [hs.hxa]) hs.y_pos.le
    unfold CPC.dyfromdx CPC.yfromx
    rw [← sub_eq_add_neg, pyDiv_ok h0.ne', Py.ok_bind, hm]
    have hr : CPC.inrange (c.k / (c.x - c.xAct)) c.yMin (some (c.k / (c.x - c.xAct))) = true := by
      unfold CPC.inrange
      simp [not_lt.2 hx]
    simp only [Bool.false_eq_true, if_false, hr, Py.ok_bind, Bool.true_eq_false]
  · rfl

/-- The trade does not exceed what a concentrated pool can take until it has paid out everything. -/
def Below (c : CPC ℝ) (v : ℝ × ℝ) : Prop :=
  (c.yAct < c.y → v.1 ≤ c.k / (c.y - c.yAct) - c.x) ∧ (c.xAct < c.x → v.2 ≤ c.k / (c.x - c.xAct) - c.y)

theorem maxConstr_ok {c : CPC ℝ} (hs : Sound c) (sc : Str → ℝ) (i : Nat) :
    ∃ f, maxConstr c sc i = .ok f ∧ ∀ dx dy, f dx dy ↔ Below c (dx.getD i 0 / sc c.tknb, dy.getD i 0 / sc c.tknq) := by
  unfold maxConstr
  rw [dxMax_ok hs, Py.ok_bind, dyMax_ok hs, Py.ok_bind]
  refine ⟨_, rfl, fun dx dy => ?_⟩
  unfold Below
  dsimp only
  by_cases h1 : c.yAct < c.y <;> by_cases h2 : c.xAct < c.x <;> simp [h1, h2]

/-- A trade along the curve within the pool's reserves stays below the maximum. -/
theorem below_of_curve {c : CPC ℝ} {v : ℝ × ℝ} (ha : Allowed c v) (hk : (c.x + v.1) * (c.y + v.2) = c.k) : Below c v := by
  constructor
  · intro h
    have h0 : 0 < c.y - c.yAct := by linarith
    have : c.x + v.1 ≤ c.k / (c.y - c.yAct) := by
      rw [le_div_iff₀ h0, ← hk]
      exact mul_le_mul_of_nonneg_left (by linarith [ha.ya]) ha.x.le
    linarith
  · intro h
    have h0 : 0 < c.x - c.xAct := by linarith
    have : c.y + v.2 ≤ c.k / (c.x - c.xAct) := by
      rw [le_div_iff₀ h0, ← hk, mul_comm]
      exact mul_le_mul_of_nonneg_right (by linarith [ha.xa]) ha.y.le
    linarith

/-! ## The program -/

theorem mapM_ok' {α β : Type} {f : α → Py β} {g : α → β} {l : List α} (h : ∀ a ∈ l, f a = .ok (g a)) : l.mapM f = .ok (l.map g) := by
  induction l with
  | nil => rfl
  | cons a l ih =>
    rw [List.mapM_cons, h a (by simp), Py.ok_bind, ih fun b hb => h b (List.mem_cons_of_mem _ hb), Py.ok_bind]
    rfl

theorem mem_rows {s : SCC ℝ} {sc : Str → ℝ} (h : Uniform s sc) (r : (CPC ℝ × (Str → ℝ)) × Nat) :
    r ∈ rows s ↔ s.cc.curves[r.2]? = some r.1.1 ∧ r.1.2 = sc := by
  obtain ⟨⟨c, f⟩, i⟩ := r
  unfold rows
  rw [List.mem_zipIdx_iff_getElem?, List.getElem?_zip_eq_some, h.own]
  dsimp only
  rw [List.getElem?_replicate]
  constructor
  · rintro ⟨h1, h2⟩
    refine ⟨h1, ?_⟩
    split at h2
    · exact (Option.some.inj h2).symm
    · cases h2
  · rintro ⟨h1, rfl⟩
    exact ⟨h1, if_pos (List.getElem?_eq_some_iff.1 h1).1⟩

/-- The trade of one curve in the report. -/
theorem reported_get {s : SCC ℝ} {sc : Str → ℝ} (h : Uniform s sc) {dx dy : List ℝ} (hx : dx.length = s.cc.curves.length)
    (hy : dy.length = s.cc.curves.length) {i : Nat} {c : CPC ℝ} (hc : s.cc.curves[i]? = some c) :
    (reported s dx dy)[i]? = some (dx.getD i 0 / sc c.tknb, dy.getD i 0 / sc c.tknq) := by
  have hi := (List.getElem?_eq_some_iff.1 hc).1
  have h1 : dx[i]? = some (dx.getD i 0) := by
    rw [List.getD_eq_getElem?_getD, List.getElem?_eq_getElem (hx ▸ hi)]; rfl
  have h2 : dy[i]? = some (dy.getD i 0) := by
    rw [List.getD_eq_getElem?_getD, List.getElem?_eq_getElem (hy ▸ hi)]; rfl
  have h3 : (s.cc.curves.zip (dx.zip dy))[i]? = some (c, dx.getD i 0, dy.getD i 0) :=
    List.getElem?_zip_eq_some.2 ⟨hc, List.getElem?_zip_eq_some.2 ⟨h1, h2⟩⟩
  rw [reported_eq h, List.getElem?_map, h3]
  rfl

theorem forall_rows {s : SCC ℝ} {sc : Str → ℝ} (h : Uniform s sc) {dx dy : List ℝ} (hx : dx.length = s.cc.curves.length)
    (hy : dy.length = s.cc.curves.length) (Q : CPC ℝ → ℝ × ℝ → Prop) :
    (∀ r ∈ rows s, Q r.1.1 (dx.getD r.2 0 / r.1.2 r.1.1.tknb, dy.getD r.2 0 / r.1.2 r.1.1.tknq)) ↔
      ∀ cv ∈ s.cc.curves.zip (reported s dx dy), Q cv.1 cv.2 := by
  constructor
  · rintro hr ⟨c, v⟩ hcv
    obtain ⟨i, hi⟩ := List.mem_iff_getElem?.1 hcv
    obtain ⟨h1, h2⟩ := List.getElem?_zip_eq_some.1 hi
    rw [reported_get h hx hy h1] at h2
    have := hr ((c, sc), i) ((mem_rows h _).2 ⟨h1, rfl⟩)
    rw [← Option.some.inj h2]
    exact this
  · rintro hz ⟨⟨c, f⟩, i⟩ hr
    obtain ⟨h1, rfl⟩ := (mem_rows h _).1 hr
    refine hz (c, _) (List.mem_iff_getElem?.2 ⟨i, List.getElem?_zip_eq_some.2 ⟨h1, ?_⟩⟩)
    exact reported_get h hx hy h1

/-- The constraints are on tokens that the curves trade. -/
structure Fits (s : SCC ℝ) (sfc : SFC ℝ) : Prop where
  var : sfc.optVar ∈ s.cc.tkns
  tokens : ∀ t ∈ sfc.tokens, t ∈ s.cc.tkns

/-- The trades bring the required net amount of every constrained token. -/
def Financed (s : SCC ℝ) (sfc : SFC ℝ) (w : List (ℝ × ℝ)) : Prop :=
  ∀ t ∈ sfc.tokens, ∀ v, sfc.get t = .ok (.amount v) → net t s.cc.curves w = v

theorem nofees_ok {s : SCC ℝ} {sc : Str → ℝ} (hu : Uniform s sc) (hs : ∀ c ∈ s.cc.curves, Sound c) {sfc : SFC ℝ} (hf : Fits s sfc)
    (nomin maxc : Bool) :
    ∃ P, nofees s sfc nomin maxc = .ok P ∧
      (∀ dx dy, P.Feasible dx dy ↔ dx.length = s.cc.curves.length ∧ dy.length = s.cc.curves.length ∧
        (∀ cv ∈ s.cc.curves.zip (reported s dx dy), OnCurve cv.1 cv.2) ∧
        (nomin = false → ∀ cv ∈ s.cc.curves.zip (reported s dx dy), 0 ≤ cv.1.xAct + cv.2.1 ∧ 0 ≤ cv.1.yAct + cv.2.2) ∧
        (maxc = true → ∀ cv ∈ s.cc.curves.zip (reported s dx dy), Below cv.1 cv.2) ∧ Financed s sfc (reported s dx dy)) ∧
      ∀ dx dy, dx.length = s.cc.curves.length → dy.length = s.cc.curves.length →
        P.objective dx dy = net sfc.optVar s.cc.curves (reported s dx dy) * sc sfc.optVar := by
  have hne : s.cc.curves ≠ [] := by
    intro e
    have := hf.var
    unfold CC.tkns at this
    rw [e] at this
    simp at this
  obtain ⟨c0, cs0, hcs⟩ := List.exists_cons_of_ne_nil hne
  have hown : s.own = sc :: List.replicate cs0.length sc := by
    rw [hu.own, hcs, List.length_cons, List.replicate_succ]
  have hget : ∀ t ∈ sfc.tokens, ∃ r, sfc.get t = .ok r := by
    intro t ht
    unfold SFC.get
    rw [if_neg (not_not.2 ht)]
    exact ⟨_, rfl⟩
  -- the constraints of the tokens
  obtain ⟨g, hg, hgiff⟩ : ∃ g : Str → List (List ℝ → List ℝ → Prop), (∀ t ∈ sfc.tokens, tokenConstr s.cc sfc sc t = .ok (g t)) ∧
      ∀ t ∈ sfc.tokens, ∀ dx dy, (∀ f ∈ g t, f dx dy) ↔ ∀ v, sfc.get t = .ok (.amount v) → flow (s.cc.tokenEntry t) dx dy = v * sc t := by
    refine ⟨fun t => match sfc.get t with
      | .ok (.amount v) => [fun dx dy => flow (s.cc.tokenEntry t) dx dy = v * sc t]
      | _ => [], ?_, ?_⟩
    · intro t ht
      obtain ⟨r, hr⟩ := hget t ht
      unfold tokenConstr tokenLookup
      rw [hr, Py.ok_bind, if_pos (hf.tokens t ht)]
      dsimp only
      rw [hr]
      cases r <;> rfl
    · intro t ht dx dy
      obtain ⟨r, hr⟩ := hget t ht
      dsimp only
      rw [hr]
      cases r <;> simp
  -- the maximum constraints
  obtain ⟨mx, hmx, hmxiff⟩ : ∃ mx, maxConstrs s maxc = .ok mx ∧
      ∀ dx dy, (∀ f ∈ mx, f dx dy) ↔ (maxc = true → ∀ r ∈ rows s,
        Below r.1.1 (dx.getD r.2 0 / r.1.2 r.1.1.tknb, dy.getD r.2 0 / r.1.2 r.1.1.tknq)) := by
    cases maxc with
    | false => exact ⟨[], rfl, by simp⟩
    | true =>
      have hch : ∀ r ∈ rows s, ∃ f, maxConstr r.1.1 r.1.2 r.2 = .ok f ∧ ∀ dx dy, f dx dy ↔
          Below r.1.1 (dx.getD r.2 0 / r.1.2 r.1.1.tknb, dy.getD r.2 0 / r.1.2 r.1.1.tknq) := by
        intro r hr
        have := (mem_rows hu r).1 hr
        exact maxConstr_ok (hs _ (List.mem_of_getElem? this.1)) _ _
      choose! f hf1 hf2 using hch
      refine ⟨(rows s).map f, mapM_ok' hf1, fun dx dy => ?_⟩
      simp only [List.mem_map, forall_exists_index, and_imp, forall_apply_eq_imp_iff₂, forall_const]
      exact forall₂_congr fun r hr => hf2 r hr dx dy
  refine ⟨⟨s.cc.curves.length, (rows s).map (fun r => curveConstr r.1.1 r.1.2 r.2) ++
        (if nomin then [] else (rows s).map fun r => minConstr r.1.1 r.1.2 r.2) ++ mx ++ (sfc.tokens.map g).flatten,
      flow (s.cc.tokenEntry sfc.optVar)⟩, ?_, ?_, ?_⟩
  · unfold nofees
    rw [hown]
    dsimp only
    rw [hmx, Py.ok_bind, mapM_ok' hg, Py.ok_bind]
    unfold tokenLookup
    rw [if_pos hf.var]
    rfl
  · intro dx dy
    unfold Program.Feasible
    dsimp only
    refine and_congr_right fun hx => and_congr_right fun hy => ?_
    have hcur : (∀ f ∈ (rows s).map (fun r => curveConstr r.1.1 r.1.2 r.2), f dx dy) ↔
        ∀ cv ∈ s.cc.curves.zip (reported s dx dy), OnCurve cv.1 cv.2 := by
      rw [← forall_rows hu hx hy]
      simp only [List.mem_map, forall_exists_index, and_imp, forall_apply_eq_imp_iff₂]
      exact forall₂_congr fun r hr => curveConstr_iff (hs _ (List.mem_of_getElem? ((mem_rows hu r).1 hr).1)) _ _ _ _
    have hmin : (∀ f ∈ (if nomin then [] else (rows s).map fun r => minConstr r.1.1 r.1.2 r.2), f dx dy) ↔
        (nomin = false → ∀ cv ∈ s.cc.curves.zip (reported s dx dy), 0 ≤ cv.1.xAct + cv.2.1 ∧ 0 ≤ cv.1.yAct + cv.2.2) := by
      cases nomin with
      | true => simp
      | false =>
        rw [← forall_rows hu hx hy (fun c v => 0 ≤ c.xAct + v.1 ∧ 0 ≤ c.yAct + v.2)]
        simp only [Bool.false_eq_true, if_false, List.mem_map, forall_exists_index, and_imp, forall_apply_eq_imp_iff₂, forall_const]
        exact forall₂_congr fun r hr => minConstr_iff _ _ _ _
    have hmax : (∀ f ∈ mx, f dx dy) ↔ (maxc = true → ∀ cv ∈ s.cc.curves.zip (reported s dx dy), Below cv.1 cv.2) := by
      rw [hmxiff, forall_rows hu hx hy]
    have hfin : (∀ f ∈ (sfc.tokens.map g).flatten, f dx dy) ↔ Financed s sfc (reported s dx dy) := by
      unfold Financed
      simp only [List.mem_flatten, List.mem_map, forall_exists_index, and_imp, forall_apply_eq_imp_iff₂]
      constructor
      · intro h t ht v hv
        have := (hgiff t ht dx dy).1 (fun f hf' => h f t ht hf') v hv
        rw [flow_net hu hx hy] at this
        exact mul_right_cancel₀ (hu.pos t).ne' this
      · intro h f t ht hf'
        refine (hgiff t ht dx dy).2 (fun v hv => ?_) f hf'
        rw [flow_net hu hx hy, h t ht v hv]
    rw [← hcur, ← hmin, ← hmax, ← hfin]
    simp only [List.mem_append, or_imp, forall_and, and_assoc]
  · intro dx dy hx hy
    exact flow_net hu hx hy _

/-- The constraints made by the optimizer's own functions are on tokens of its curves. -/
theorem sfcOf_fits {s : SCC ℝ} {data : List (Str × Constr ℝ)} {sfc : SFC ℝ} (h : sfcOf s data = .ok sfc) :
    Fits s sfc ∧ sfc.tokens = s.cc.tkns ∧ sfc.data = data ∧ ∃ kv ∈ data, kv.1 = sfc.optVar ∧ kv.2.isVar = true := by
  unfold sfcOf SFC.make at h
  split at h
  · next kv hkv =>
    dsimp only at h
    split at h
    · next hall =>
      cases h
      have hmem : kv ∈ data.filter fun kv => kv.2.isVar := by rw [hkv]; simp
      rw [List.mem_filter] at hmem
      have hk : kv.1 ∈ s.cc.tkns := by
        have := List.all_eq_true.1 hall kv.1 (List.mem_map_of_mem hmem.1)
        simpa using this
      exact ⟨⟨hk, fun t ht => ht⟩, rfl, rfl, kv, hmem.1, rfl, hmem.2⟩
    · cases h
  · cases h

/-- C130: the program says what it should: the values of its variables, converted into token units as in the report, are feasible exactly
if every pool accepts its trade and the trades bring the required net amount of every constrained token, and the objective is the net amount
of the optimized token, in units of its scale. -/
theorem C130_program {s : SCC ℝ} {sc : Str → ℝ} (hu : Uniform s sc) (hs : ∀ c ∈ s.cc.curves, Sound c) {sfc : SFC ℝ} (hf : Fits s sfc) :
    ∃ P, nofees s sfc = .ok P ∧
      (∀ dx dy, P.Feasible dx dy ↔ dx.length = s.cc.curves.length ∧ dy.length = s.cc.curves.length ∧
        (∀ cv ∈ s.cc.curves.zip (reported s dx dy), Allowed cv.1 cv.2) ∧ Financed s sfc (reported s dx dy)) ∧
      ∀ dx dy, dx.length = s.cc.curves.length → dy.length = s.cc.curves.length →
        P.objective dx dy = net sfc.optVar s.cc.curves (reported s dx dy) * sc sfc.optVar := by
  obtain ⟨P, h1, h2, h3⟩ := nofees_ok hu hs hf false false
  refine ⟨P, h1, fun dx dy => ?_, h3⟩
  rw [h2]
  refine and_congr_right fun _ => and_congr_right fun _ => ?_
  constructor
  · rintro ⟨g1, g2, -, g3⟩
    exact ⟨fun cv hcv => allowed_iff.2 ⟨g1 cv hcv, g2 rfl cv hcv⟩, g3⟩
  · rintro ⟨g1, g2⟩
    exact ⟨fun cv hcv => (allowed_iff.1 (g1 cv hcv)).1, fun _ cv hcv => (allowed_iff.1 (g1 cv hcv)).2, by simp, g2⟩

/-! ## Optimal points -/

/-- The variables that are reported as given trades. -/
def scaledX (s : SCC ℝ) (sc : Str → ℝ) (w : List (ℝ × ℝ)) : List ℝ := (s.cc.curves.zip w).map fun r => r.2.1 * sc r.1.tknb

def scaledY (s : SCC ℝ) (sc : Str → ℝ) (w : List (ℝ × ℝ)) : List ℝ := (s.cc.curves.zip w).map fun r => r.2.2 * sc r.1.tknq

theorem reported_scaled {s : SCC ℝ} {sc : Str → ℝ} (hu : Uniform s sc) {w : List (ℝ × ℝ)} (hw : w.length = s.cc.curves.length) :
    (scaledX s sc w).length = s.cc.curves.length ∧ (scaledY s sc w).length = s.cc.curves.length ∧
      reported s (scaledX s sc w) (scaledY s sc w) = w := by
  refine ⟨by simp [scaledX, hw], by simp [scaledY, hw], ?_⟩
  rw [reported_eq hu]
  unfold scaledX scaledY
  generalize s.cc.curves = cs at hw
  induction cs generalizing w with
  | nil => cases w with
    | nil => rfl
    | cons => simp at hw
  | cons c cs ih =>
    cases w with
    | nil => simp at hw
    | cons v w =>
      have := ih (w := w) (by simpa using hw)
      simp only [List.zip_cons_cons, List.map_cons] at this ⊢
      rw [this, mul_div_cancel_right₀ _ (hu.pos _).ne', mul_div_cancel_right₀ _ (hu.pos _).ne']

/-- The best trades under self-financing constraints: one for each pool, which accepts it, with the required net amounts, that get as much as
possible of the optimized token out of the pools. -/
structure Best (s : SCC ℝ) (sfc : SFC ℝ) (w : List (ℝ × ℝ)) : Prop where
  length : w.length = s.cc.curves.length
  allowed : ∀ cv ∈ s.cc.curves.zip w, Allowed cv.1 cv.2
  financed : Financed s sfc w
  best : ∀ w' : List (ℝ × ℝ), w'.length = s.cc.curves.length → (∀ cv ∈ s.cc.curves.zip w', Allowed cv.1 cv.2) → Financed s sfc w' →
    net sfc.optVar s.cc.curves w ≤ net sfc.optVar s.cc.curves w'

/-- C130: the optimal points of the program are those that are reported as best trades, and all best trades are reported for one. -/
theorem C130_optimal {s : SCC ℝ} {sc : Str → ℝ} (hu : Uniform s sc) (hs : ∀ c ∈ s.cc.curves, Sound c) {sfc : SFC ℝ} (hf : Fits s sfc) :
    ∃ P, nofees s sfc = .ok P ∧
      (∀ dx dy, P.Optimal dx dy ↔ dx.length = s.cc.curves.length ∧ dy.length = s.cc.curves.length ∧ Best s sfc (reported s dx dy)) ∧
      ∀ w, Best s sfc w → ∃ dx dy, P.Optimal dx dy ∧ reported s dx dy = w := by
  obtain ⟨P, h1, h2, h3⟩ := C130_program hu hs hf
  have key : ∀ dx dy, P.Optimal dx dy ↔
      dx.length = s.cc.curves.length ∧ dy.length = s.cc.curves.length ∧ Best s sfc (reported s dx dy) := by
    intro dx dy
    unfold Program.Optimal
    rw [h2]
    constructor
    · rintro ⟨⟨hx, hy, ha, hn⟩, hb⟩
      refine ⟨hx, hy, reported_length hu hx hy, ha, hn, fun w hw hwa hwn => ?_⟩
      obtain ⟨gx, gy, ge⟩ := reported_scaled hu hw
      have := hb _ _ ((h2 _ _).2 ⟨gx, gy, by rw [ge]; exact hwa, by rw [ge]; exact hwn⟩)
      rw [h3 _ _ hx hy, h3 _ _ gx gy, ge] at this
      exact le_of_mul_le_mul_right this (hu.pos _)
    · rintro ⟨hx, hy, hb⟩
      refine ⟨⟨hx, hy, hb.allowed, hb.financed⟩, fun dx' dy' h' => ?_⟩
      obtain ⟨gx, gy, ga, gn⟩ := (h2 _ _).1 h'
      rw [h3 _ _ hx hy, h3 _ _ gx gy]
      exact mul_le_mul_of_nonneg_right (hb.best _ (reported_length hu gx gy) ga gn) (hu.pos _).le
  refine ⟨P, h1, key, fun w hw => ?_⟩
  obtain ⟨gx, gy, ge⟩ := reported_scaled hu hw.length
  exact ⟨_, _, (key _ _).2 ⟨gx, gy, by rw [ge]; exact hw⟩, ge⟩

/-- C130: the token scale is a matter of numerics only: two containers of the same curves with different scales have the same solutions. -/
theorem C130_scale {s s' : SCC ℝ} {sc sc' : Str → ℝ} (hu : Uniform s sc) (hu' : Uniform s' sc') (hcc : s.cc = s'.cc)
    (hs : ∀ c ∈ s.cc.curves, Sound c) {sfc : SFC ℝ} (hf : Fits s sfc) :
    ∃ P P', nofees s sfc = .ok P ∧ nofees s' sfc = .ok P' ∧
      ∀ dx dy, P.Optimal dx dy → ∃ dx' dy', P'.Optimal dx' dy' ∧ reported s' dx' dy' = reported s dx dy := by
  obtain ⟨P, h1, h2, -⟩ := C130_optimal hu hs hf
  have hf' : Fits s' sfc := ⟨hcc ▸ hf.var, fun t ht => hcc ▸ hf.tokens t ht⟩
  obtain ⟨P', h1', h2', h3'⟩ := C130_optimal hu' (hcc ▸ hs) hf'
  refine ⟨P, P', h1, h1', fun dx dy h => ?_⟩
  have hb := ((h2 dx dy).1 h).2.2
  refine h3' _ ⟨hcc ▸ hb.length, hcc ▸ hb.allowed, ?_, ?_⟩
  · have := hb.financed
    unfold Financed at this ⊢
    rw [← hcc]
    exact this
  · have := hb.best
    unfold Financed at this ⊢
    rw [← hcc]
    exact this

/-! ## The marginal price optimizer solves the program -/

/-- The amounts that the constraints require, for all tokens but the optimized one. -/
def Requires (s : SCC ℝ) (sfc : SFC ℝ) (req : Str → ℝ) : Prop :=
  ∀ t ∈ s.cc.tkns, t ≠ sfc.optVar → t ∈ sfc.tokens ∧ sfc.get t = .ok (.amount (req t))

/-- C130: if the marginal price optimizer's prices bring the required net amounts, its trades are the solution of the convex program: they are
optimal, with the reported result as value, and every optimal point is reported as these trades. This also holds with the maximum
constraints. -/
theorem C130_margp {s : SCC ℝ} {sc : Str → ℝ} (hu : Uniform s sc) {sfc : SFC ℝ} (hf : Fits s sfc) {p : List ℝ}
    (hi : Input s.cc sfc.optVar p) {m : Margp ℝ} (hm : margp s.cc sfc.optVar p = .ok m) {v : List (ℝ × ℝ)} (hv : m.dxdyvalues = .ok v)
    {req : Str → ℝ} (hr : Requires s sfc req) (hvar : ∀ a, sfc.get sfc.optVar ≠ .ok (.amount a))
    (hn : ∀ t ∈ s.cc.tkns, t ≠ sfc.optVar → dictGet m.dtokens t = some (req t)) (maxc : Bool) :
    ∃ P, nofees s sfc false maxc = .ok P ∧ (∃ dx dy, P.Optimal dx dy ∧ reported s dx dy = v ∧
        P.objective dx dy = m.result * sc sfc.optVar) ∧
      ∀ dx dy, P.Optimal dx dy → reported s dx dy = v := by
  obtain ⟨m', v', k1, k2, k3, k4, k5, k6⟩ := C79_balance hi
  rw [hm] at k1
  cases k1
  rw [hv] at k2
  cases k2
  obtain ⟨P, h1, h2, h3⟩ := nofees_ok hu hi.sound hf false maxc
  have hvn : ∀ t ∈ s.cc.tkns, t ≠ sfc.optVar → net t s.cc.curves v = req t := by
    intro t ht hne
    have := hn t ht hne
    rw [k4 t ht] at this
    exact Option.some.inj this
  have hfin : Financed s sfc v := by
    intro t ht a ha
    by_cases hne : t = sfc.optVar
    · subst hne
      exact absurd ha (hvar a)
    · have := (hr t (hf.tokens t ht) hne).2
      rw [ha] at this
      rw [hvn t (hf.tokens t ht) hne]
      injection this with this
      injection this with this
      exact this.symm
  obtain ⟨gx, gy, ge⟩ := reported_scaled hu k3
  have hfeas : P.Feasible (scaledX s sc v) (scaledY s sc v) := by
    rw [h2, ge]
    exact ⟨gx, gy, fun cv hcv => (allowed_iff.1 (k6 cv hcv).1).1, fun _ cv hcv => (allowed_iff.1 (k6 cv hcv).1).2,
      fun _ cv hcv => below_of_curve (k6 cv hcv).1 (k6 cv hcv).2, hfin⟩
  have hopt : ∀ dx dy, P.Feasible dx dy → m.result ≤ net sfc.optVar s.cc.curves (reported s dx dy) ∧
      (m.result = net sfc.optVar s.cc.curves (reported s dx dy) → reported s dx dy = v) := by
    intro dx dy h
    obtain ⟨q1, q2, q3, q4, -, q5⟩ := (h2 _ _).1 h
    refine C80_optimal hi hm hv (reported_length hu q1 q2) (fun cv hcv => allowed_iff.2 ⟨q3 cv hcv, q4 rfl cv hcv⟩) fun t ht hne => ?_
    obtain ⟨r1, r2⟩ := hr t ht hne
    rw [q5 t r1 _ r2, hvn t ht hne]
  have hval : P.objective (scaledX s sc v) (scaledY s sc v) = m.result * sc sfc.optVar := by rw [h3 _ _ gx gy, ge, k5]
  refine ⟨P, h1, ⟨_, _, ⟨hfeas, fun dx dy h => ?_⟩, ge, hval⟩, fun dx dy h => ?_⟩
  · obtain ⟨q1, q2, -⟩ := (h2 _ _).1 h
    rw [hval, h3 _ _ q1 q2]
    exact mul_le_mul_of_nonneg_right (hopt dx dy h).1 (hu.pos _).le
  · obtain ⟨q1, q2, -⟩ := (h2 _ _).1 h.1
    have := h.2 _ _ hfeas
    rw [hval, h3 _ _ q1 q2] at this
    exact (hopt dx dy h.1).2 (le_antisymm (hopt dx dy h.1).1 (le_of_mul_le_mul_right this (hu.pos _)))

/-- C130: between pools that hold all of their curve, the range constraints change nothing. -/
theorem C130_full_range {s : SCC ℝ} {sc : Str → ℝ} (hu : Uniform s sc) (hs : ∀ c ∈ s.cc.curves, Sound c) {sfc : SFC ℝ} (hf : Fits s sfc)
    (hfull : ∀ c ∈ s.cc.curves, c.xAct = c.x ∧ c.yAct = c.y) :
    ∃ P P', nofees s sfc = .ok P ∧ nofees s sfc true = .ok P' ∧ ∀ dx dy, P.Feasible dx dy ↔ P'.Feasible dx dy := by
  obtain ⟨P, h1, h2, -⟩ := nofees_ok hu hs hf false false
  obtain ⟨P', h1', h2', -⟩ := nofees_ok hu hs hf true false
  refine ⟨P, P', h1, h1', fun dx dy => ?_⟩
  rw [h2, h2']
  refine and_congr_right fun _ => and_congr_right fun _ => and_congr_right fun h => ?_
  have : ∀ cv ∈ s.cc.curves.zip (reported s dx dy), 0 ≤ cv.1.xAct + cv.2.1 ∧ 0 ≤ cv.1.yAct + cv.2.2 := by
    intro cv hcv
    obtain ⟨e1, e2⟩ := hfull cv.1 (List.of_mem_zip hcv).1
    rw [e1, e2]
    exact ⟨(h cv hcv).x.le, (h cv hcv).y.le⟩
  simp only [Bool.true_eq_false, false_imp_iff, true_and, forall_const]
  exact ⟨fun h => h.2, fun h => ⟨this, h⟩⟩

/-! ## On the boundary -/

theorem net_set (t : Str) (cs : List (CPC ℝ)) (w : List (ℝ × ℝ)) (i : Nat) (c : CPC ℝ) (v v' : ℝ × ℝ) (hc : cs[i]? = some c)
    (hv : w[i]? = some v) : net t cs (w.set i v') = net t cs w + (if c.tknb = t then v'.1 - v.1 else 0) +
      (if c.tknq = t then v'.2 - v.2 else 0) := by
  induction cs generalizing w i with
  | nil => simp at hc
  | cons a cs ih =>
    cases w with
    | nil => simp at hv
    | cons u w =>
      cases i with
      | zero =>
        have e1 : a = c := by simpa using hc
        have e2 : u = v := by simpa using hv
        subst e1 e2
        rw [List.set_cons_zero, net, net]
        split <;> split <;> ring
      | succ i =>
        rw [List.set_cons_succ, net, net, ih w i (by simpa using hc) (by simpa using hv)]
        ring

/-- C130: the solution leaves a pool on its curve if the pool trades the optimized token and is not left without it. -/
theorem C130_boundary {s : SCC ℝ} {sfc : SFC ℝ} {w : List (ℝ × ℝ)} (hb : Best s sfc w) {c : CPC ℝ} {v : ℝ × ℝ}
    (hvar : ∀ a, sfc.get sfc.optVar ≠ .ok (.amount a))
    (hcv : (c, v) ∈ s.cc.curves.zip w) (hleft : (c.tknb = sfc.optVar ∧ 0 < c.xAct + v.1) ∨ (c.tknq = sfc.optVar ∧ 0 < c.yAct + v.2)) :
    (c.x + v.1) * (c.y + v.2) = c.k := by
  obtain ⟨i, hi⟩ := List.mem_iff_getElem?.1 hcv
  obtain ⟨h1, h2⟩ := List.getElem?_zip_eq_some.1 hi
  have ha := hb.allowed _ hcv
  by_contra hne
  have hlt : c.k < (c.x + v.1) * (c.y + v.2) := lt_of_le_of_ne ha.k (Ne.symm hne)
  have hx := ha.x
  have hy := ha.y
  -- any cheaper trade of this pool contradicts the choice
  have key : ∀ v' : ℝ × ℝ, Allowed c v' → (∀ t, t ≠ sfc.optVar → (if c.tknb = t then v'.1 - v.1 else 0) +
      (if c.tknq = t then v'.2 - v.2 else 0) = 0) → 0 ≤ (if c.tknb = sfc.optVar then v'.1 - v.1 else 0) +
      (if c.tknq = sfc.optVar then v'.2 - v.2 else 0) := by
    intro v' hal hz
    have := hb.best (w.set i v') (by rw [List.length_set]; exact hb.length) (by
      rintro ⟨e, u⟩ heu
      obtain ⟨j, hj⟩ := List.mem_iff_getElem?.1 heu
      obtain ⟨g1, g2⟩ := List.getElem?_zip_eq_some.1 hj
      rw [List.getElem?_set] at g2
      split at g2
      · next hij =>
        subst hij
        rw [h1] at g1
        cases g1
        split at g2
        · rw [← Option.some.inj g2]
          exact hal
        · cases g2
      · exact hb.allowed (e, u) (List.mem_iff_getElem?.2 ⟨j, List.getElem?_zip_eq_some.2 ⟨g1, g2⟩⟩)) (by
      intro t ht a hta
      have htv : t ≠ sfc.optVar := by
        rintro rfl
        exact hvar a hta
      rw [net_set t _ _ i c v v' h1 h2, add_assoc, hz t htv, add_zero]
      exact hb.financed t ht a hta)
    rw [net_set _ _ _ i c v v' h1 h2] at this
    linarith
  obtain ⟨gap, hgap⟩ : ∃ g, g = (c.x + v.1) * (c.y + v.2) - c.k := ⟨_, rfl⟩
  have hg0 : 0 < gap := by linarith
  rcases hleft with ⟨ht, hl⟩ | ⟨ht, hl⟩
  · obtain ⟨e, he⟩ : ∃ e, e = min (c.xAct + v.1) (min (gap / (c.y + v.2)) ((c.x + v.1) / 2)) := ⟨_, rfl⟩
    have he0 : 0 < e := by rw [he]; exact lt_min hl (lt_min (div_pos hg0 hy) (by linarith))
    have e1 : e ≤ c.xAct + v.1 := he ▸ min_le_left _ _
    have e2 : e ≤ gap / (c.y + v.2) := he ▸ (min_le_right _ _).trans (min_le_left _ _)
    have e3 : e ≤ (c.x + v.1) / 2 := he ▸ (min_le_right _ _).trans (min_le_right _ _)
    rw [le_div_iff₀ hy] at e2
    have := key (v.1 - e, v.2) ⟨by dsimp only; linarith, hy, by dsimp only; nlinarith, by dsimp only; linarith, ha.ya⟩ (by
      intro t htn
      have : c.tknb ≠ t := by rw [ht]; exact Ne.symm htn
      simp [this])
    simp only [ht, if_true, sub_self, ite_self, add_zero] at this
    linarith
  · obtain ⟨e, he⟩ : ∃ e, e = min (c.yAct + v.2) (min (gap / (c.x + v.1)) ((c.y + v.2) / 2)) := ⟨_, rfl⟩
    have he0 : 0 < e := by rw [he]; exact lt_min hl (lt_min (div_pos hg0 hx) (by linarith))
    have e1 : e ≤ c.yAct + v.2 := he ▸ min_le_left _ _
    have e2 : e ≤ gap / (c.x + v.1) := he ▸ (min_le_right _ _).trans (min_le_left _ _)
    have e3 : e ≤ (c.y + v.2) / 2 := he ▸ (min_le_right _ _).trans (min_le_right _ _)
    rw [le_div_iff₀ hx] at e2
    have := key (v.1, v.2 - e) ⟨hx, by dsimp only; linarith, by dsimp only; nlinarith, ha.xa, by dsimp only; linarith⟩ (by
      intro t htn
      have : c.tknq ≠ t := by rw [ht]; exact Ne.symm htn
      simp [this])
    simp only [ht, if_true, sub_self, ite_self, zero_add] at this
    linarith

/-! ## Constraints from a token name -/

/-- C130: called with the name of a token, the optimizer has no self-financing constraints at all: every set of trades that the pools accept is
feasible, whatever is paid in of the other tokens. -/
theorem C130_unconstrained {s : SCC ℝ} {sc : Str → ℝ} (hu : Uniform s sc) (hs : ∀ c ∈ s.cc.curves, Sound c) {target : Str}
    (ht : target ∈ s.cc.tkns) :
    ∃ P, nofeesFor s target = .ok P ∧
      (∀ dx dy, P.Feasible dx dy ↔ dx.length = s.cc.curves.length ∧ dy.length = s.cc.curves.length ∧
        (∀ cv ∈ s.cc.curves.zip (reported s dx dy), Allowed cv.1 cv.2)) ∧
      ∀ dx dy, dx.length = s.cc.curves.length → dy.length = s.cc.curves.length →
        P.objective dx dy = net target s.cc.curves (reported s dx dy) * sc target := by
  have harb : (SFC.arb target : Py (SFC ℝ)) = .ok ⟨[(target, .optVar)], [target], target⟩ := rfl
  obtain ⟨P, h1, h2, h3⟩ := C130_program (sfc := ⟨[(target, .optVar)], [target], target⟩) hu hs ⟨ht, by
    intro t h
    rw [List.mem_singleton.1 h]
    exact ht⟩
  refine ⟨P, by unfold nofeesFor; rw [harb, Py.ok_bind, h1], fun dx dy => ?_, h3⟩
  rw [h2]
  refine and_congr_right fun _ => and_congr_right fun _ => ⟨fun h => h.1, fun h => ⟨h, ?_⟩⟩
  intro t h v hv
  rw [List.mem_singleton.1 h] at hv
  unfold SFC.get dictGet at hv
  simp at hv

/-- C130: without curves, or for a token that no curve trades, there is no program. -/
theorem C130_raises {K : Type} [Field K] [LinearOrder K] [PySqrt K] (s : SCC K) (sfc : SFC K) (nominconstr maxconstr : Bool) :
    (s.own = [] → nofees s sfc nominconstr maxconstr = .error .index) ∧
    (sfc.optVar ∉ s.cc.tkns → ∀ P, nofees s sfc nominconstr maxconstr ≠ .ok P) ∧
    ∀ target, target ∉ s.cc.tkns → s.own ≠ [] → nofeesFor s target nominconstr = .error .key := by
  refine ⟨fun h => ?_, fun h P hP => ?_, fun t ht h0 => ?_⟩
  · unfold nofees
    rw [h]
  · unfold nofees at hP
    split at hP
    · cases hP
    · obtain ⟨_, -, hP⟩ := Py.bind_eq_ok.1 hP
      obtain ⟨_, -, hP⟩ := Py.bind_eq_ok.1 hP
      obtain ⟨_, h1, -⟩ := Py.bind_eq_ok.1 hP
      unfold tokenLookup at h1
      rw [if_neg h] at h1
      cases h1
  · obtain ⟨s0, l, e⟩ := List.exists_cons_of_ne_nil h0
    show nofees s ⟨[(t, .optVar)], [t], t⟩ nominconstr false = _
    unfold nofees
    rw [e]
    have h1 : [t].mapM (tokenConstr s.cc ⟨[(t, .optVar)], [t], t⟩ s0) = .ok [[]] := by
      rw [List.mapM_cons]
      unfold tokenConstr SFC.get
      simp [dictGet]
    show (maxConstrs s false >>= fun _ => [t].mapM (tokenConstr s.cc ⟨[(t, .optVar)], [t], t⟩ s0) >>= _) = _
    rw [h1]
    unfold tokenLookup
    rw [if_neg ht]
    rfl

/-- A concentrated pool at price 1 that holds 5 `A` and 5 `B`. -/
noncomputable def onePool : SCC ℝ := SCC.make [.plain ⟨100, 10, 5, 5, "A/B".toList, some (.str "c1".toList), []⟩]

theorem ab_sound {k x xa ya : ℝ} {cid : Option Cid} {l : Str} (hk : 0 < k) (hx : 0 < x) (h1 : 0 ≤ xa) (h2 : xa ≤ x) (h3 : 0 ≤ ya)
    (h4 : ya ≤ k / x) : Sound (⟨k, x, xa, ya, "A/B".toList, cid, l⟩ : CPC ℝ) :=
  ⟨hk, hx, h1, h2, h3, h4, "A".toList, "B".toList, (by decide : CarbonPair.unpack "A/B".toList = .ok ("A".toList, "B".toList))⟩

/-- C130: such a solution is no arbitrage. From a single pool, where there is none, the optimizer takes all `A` and pays at least ten `B` for
five of them, above the pool's price. -/
theorem C130_named_violated : ∃ P, nofeesFor onePool "A".toList = .ok P ∧ P.Optimal [-5] [10] ∧
    ∀ dx dy, P.Optimal dx dy → net "A".toList onePool.cc.curves (reported onePool dx dy) = -5 ∧
      10 ≤ net "B".toList onePool.cc.curves (reported onePool dx dy) := by
  have hc : onePool.cc.curves = [⟨100, 10, 5, 5, "A/B".toList, some (.str "c1".toList), []⟩] := rfl
  have hu : Uniform onePool SCC.unit := uniform_default _
  have htk : onePool.cc.tkns = ["A".toList, "B".toList] := by
    unfold CC.tkns
    rw [hc]
    rfl
  obtain ⟨P, h1, h2, h3⟩ := C130_unconstrained hu (by
    intro c h
    rw [hc, List.mem_singleton] at h
    subst h
    exact ab_sound (by norm_num) (by norm_num) (by norm_num) (by norm_num) (by norm_num) (by norm_num)) (target := "A".toList) (by
    rw [htk]; simp)
  have hrep : ∀ a b : ℝ, reported onePool [a] [b] = [(a, b)] := by
    intro a b
    rw [reported_eq hu, hc]
    simp [SCC.unit]
  have hA : CPC.tknb (⟨100, 10, 5, 5, "A/B".toList, some (.str "c1".toList), []⟩ : CPC ℝ) = "A".toList := by decide +kernel
  have hB : CPC.tknq (⟨100, 10, 5, 5, "A/B".toList, some (.str "c1".toList), []⟩ : CPC ℝ) = "B".toList := by decide +kernel
  have hnA : ∀ a b : ℝ, net "A".toList onePool.cc.curves [(a, b)] = a := by
    intro a b
    rw [hc]
    simp only [net, hA, hB]
    simp
  have hnB : ∀ a b : ℝ, net "B".toList onePool.cc.curves [(a, b)] = b := by
    intro a b
    rw [hc]
    simp only [net, hA, hB]
    simp
  have hy : CPC.y (⟨100, 10, 5, 5, "A/B".toList, some (.str "c1".toList), []⟩ : CPC ℝ) = 10 := by unfold CPC.y; norm_num
  have hfe : ∀ a b : ℝ, P.Feasible [a] [b] ↔ 0 < 10 + a ∧ 0 < 10 + b ∧ 100 ≤ (10 + a) * (10 + b) ∧ 0 ≤ 5 + a ∧ 0 ≤ 5 + b := by
    intro a b
    rw [h2, hrep, hc]
    simp only [List.length_singleton, true_and, List.zip_cons_cons, List.zip_nil_right, List.mem_singleton, forall_eq]
    constructor
    · rintro ⟨g1, g2, g3, g4, g5⟩
      rw [hy] at g2 g3
      exact ⟨g1, g2, g3, g4, g5⟩
    · rintro ⟨g1, g2, g3, g4, g5⟩
      exact ⟨g1, by rw [hy]; exact g2, by rw [hy]; exact g3, g4, g5⟩
  have hob : ∀ a b : ℝ, P.objective [a] [b] = a := by
    intro a b
    rw [h3 [a] [b] (by rw [hc]; rfl) (by rw [hc]; rfl), hrep, hnA]
    simp [SCC.unit]
  have hlen : ∀ dx dy, P.Feasible dx dy → ∃ a b, dx = [a] ∧ dy = [b] := by
    intro dx dy h
    obtain ⟨g1, g2, -⟩ := (h2 _ _).1 h
    rw [hc] at g1 g2
    obtain ⟨a, rfl⟩ := List.length_eq_one_iff.1 g1
    obtain ⟨b, rfl⟩ := List.length_eq_one_iff.1 g2
    exact ⟨a, b, rfl, rfl⟩
  have hopt : P.Optimal [-5] [10] := by
    refine ⟨(hfe _ _).2 (by norm_num), fun dx dy h => ?_⟩
    obtain ⟨a, b, rfl, rfl⟩ := hlen dx dy h
    rw [hob, hob]
    linarith [((hfe a b).1 h).2.2.2.1]
  refine ⟨P, h1, hopt, fun dx dy h => ?_⟩
  obtain ⟨a, b, rfl, rfl⟩ := hlen dx dy h.1
  obtain ⟨g1, g2, g3, g4, g5⟩ := (hfe a b).1 h.1
  have h5 := h.2 _ _ hopt.1
  rw [hob, hob] at h5
  have e : a = -5 := le_antisymm h5 (by linarith)
  subst e
  rw [hrep, hnA, hnB]
  exact ⟨rfl, by linarith⟩

/-- The scale in which an `A` is worth ten. -/
noncomputable def tenA : Str → ℝ := fun t => if t = "A".toList then 10 else 1

/-- A pool in a container with a token scale, and a second one added afterwards. -/
noncomputable def mixed : SCC ℝ :=
  (SCC.make [.plain ⟨100, 10, 10, 10, "A/B".toList, some (.str "c1".toList), []⟩] (some tenA)).add
    (.plain ⟨100, 20, 20, 5, "A/B".toList, some (.str "c2".toList), []⟩)

/-- C130: a curve that is added to a container with a token scale keeps the default scale, and the program then balances numbers of different
units: with constraints that ask for no `A`, trades that bring nine of them are feasible. -/
theorem C130_add_violated : ∃ sfc P, sfcOf mixed [("B".toList, .optVar)] = .ok sfc ∧ nofees mixed sfc = .ok P ∧
    sfc.get "A".toList = .ok (.amount 0) ∧ P.Feasible [-10, 10] [2, -1] ∧
    reported mixed [-10, 10] [2, -1] = [(-1, 2), (10, -1)] ∧ net "A".toList mixed.cc.curves (reported mixed [-10, 10] [2, -1]) = 9 := by
  have hc : mixed.cc.curves = [⟨100, 10, 10, 10, "A/B".toList, some (.str "c1".toList), []⟩,
    ⟨100, 20, 20, 5, "A/B".toList, some (.str "c2".toList), []⟩] := rfl
  have ho : mixed.own = [tenA, SCC.unit] := rfl
  have htk : mixed.cc.tkns = ["A".toList, "A".toList, "B".toList, "B".toList] := by
    unfold CC.tkns
    rw [hc]
    rfl
  have hA : ∀ (k x xa ya : ℝ) (cid : Option Cid), CPC.tknb (⟨k, x, xa, ya, "A/B".toList, cid, []⟩ : CPC ℝ) = "A".toList := by
    intro k x xa ya cid
    unfold CPC.tknb
    dsimp only
    decide +kernel
  have hB : ∀ (k x xa ya : ℝ) (cid : Option Cid), CPC.tknq (⟨k, x, xa, ya, "A/B".toList, cid, []⟩ : CPC ℝ) = "B".toList := by
    intro k x xa ya cid
    unfold CPC.tknq
    dsimp only
    decide +kernel
  have hAB : ("A".toList : Str) ≠ "B".toList := by decide
  have eA : mixed.cc.tokenEntry "A".toList = ([0, 1], []) := by
    unfold CC.tokenEntry
    rw [hc]
    simp only [CC.positions, hA, hB, decide_true, decide_eq_true_eq, if_true, if_neg (Ne.symm hAB), Nat.zero_add]
  have eB : mixed.cc.tokenEntry "B".toList = ([], [0, 1]) := by
    unfold CC.tokenEntry
    rw [hc]
    simp only [CC.positions, hA, hB, decide_true, decide_eq_true_eq, if_true, if_neg hAB, Nat.zero_add]
  have hsA : tenA "A".toList = 10 := by unfold tenA; rw [if_pos rfl]
  have hsB : tenA "B".toList = 1 := by unfold tenA; rw [if_neg (Ne.symm hAB)]
  have hrep : reported mixed [-10, 10] [2, -1] = [(-1, 2), (10, -1)] := by
    unfold reported
    rw [hc, ho]
    simp only [List.zip_cons_cons, List.zip_nil_right, List.map_cons, List.map_nil, hA, hB, hsA, hsB, SCC.unit]
    norm_num
  obtain ⟨sfc, hsfc⟩ : ∃ x : SFC ℝ, x = ⟨[("B".toList, .optVar)], mixed.cc.tkns, "B".toList⟩ := ⟨_, rfl⟩
  have hgA : sfc.get "A".toList = .ok (.amount 0) := by
    rw [hsfc]
    unfold SFC.get dictGet
    rw [htk]
    simp [dictGet]
  have hgB : sfc.get "B".toList = .ok .optVar := by
    rw [hsfc]
    unfold SFC.get dictGet
    rw [htk]
    simp
  have tA : tokenConstr mixed.cc sfc tenA "A".toList = .ok [fun dx dy => flow ([0, 1], []) dx dy = 0 * tenA "A".toList] := by
    unfold tokenConstr tokenLookup
    rw [hgA, Py.ok_bind, htk, eA]
    simp only [List.mem_cons, true_or, if_true, Py.ok_bind]
  have tB : tokenConstr mixed.cc sfc tenA "B".toList = .ok [] := by
    unfold tokenConstr
    rw [hgB, Py.ok_bind]
  have htoks : sfc.tokens = ["A".toList, "A".toList, "B".toList, "B".toList] := by rw [hsfc]; exact htk
  refine ⟨sfc, ⟨2, (rows mixed).map (fun r => curveConstr r.1.1 r.1.2 r.2) ++ (rows mixed).map (fun r => minConstr r.1.1 r.1.2 r.2) ++ [] ++
      [[fun dx dy => flow ([0, 1], []) dx dy = 0 * tenA "A".toList], [fun dx dy => flow ([0, 1], []) dx dy = 0 * tenA "A".toList], [], []].flatten,
      flow ([], [0, 1])⟩, ?_, ?_, hgA, ?_, hrep, ?_⟩
  · rw [hsfc]
    unfold sfcOf SFC.make
    rw [htk]
    rfl
  · unfold nofees
    rw [ho]
    dsimp only
    unfold maxConstrs
    rw [if_neg (by simp), Py.ok_bind, htoks]
    have hm : ["A".toList, "A".toList, "B".toList, "B".toList].mapM (tokenConstr mixed.cc sfc tenA) =
        .ok [[fun dx dy => flow ([0, 1], []) dx dy = 0 * tenA "A".toList], [fun dx dy => flow ([0, 1], []) dx dy = 0 * tenA "A".toList],
          [], []] := by
      simp only [List.mapM_cons, List.mapM_nil, tA, tB, Py.ok_bind]
      rfl
    rw [hm, Py.ok_bind]
    unfold tokenLookup
    rw [show sfc.optVar = "B".toList by rw [hsfc], htk, if_pos (by simp), Py.ok_bind, eB, hc]
    rfl
  · refine ⟨rfl, rfl, ?_⟩
    have s100 : ∀ a b : ℝ, 100 ≤ a * b → PySqrt.sqrt (100 : ℝ) ≤ PySqrt.sqrt (a * b) := fun a b h => Real.sqrt_le_sqrt h
    unfold rows
    rw [hc, ho]
    simp only [List.zip_cons_cons, List.zip_nil_right, List.zipIdx_cons, List.zipIdx_nil, List.map_cons, List.map_nil, List.cons_append,
      List.nil_append, List.append_nil, List.flatten_cons, List.flatten_nil, List.mem_cons, List.not_mem_nil, or_false, forall_eq_or_imp,
      forall_eq, curveConstr, minConstr, flow, hA, hB, hsA, hsB, SCC.unit, CPC.y]
    refine ⟨⟨by norm_num, by norm_num, s100 _ _ (by norm_num)⟩, ⟨by norm_num, by norm_num, s100 _ _ (by norm_num)⟩, by norm_num,
      by norm_num, by norm_num, by norm_num⟩
  · rw [hrep, hc]
    simp only [net, hA, hB]
    simp [hAB]
    norm_num

/-- A pool for `A` and `B` at price 1, and two for `C` and `D` at the prices 1 and 1/4. -/
noncomputable def apart : SCC ℝ := SCC.make [.plain ⟨100, 10, 10, 10, "A/B".toList, some (.str "c1".toList), []⟩,
  .plain ⟨100, 10, 10, 10, "C/D".toList, some (.str "c2".toList), []⟩, .plain ⟨100, 20, 20, 5, "C/D".toList, some (.str "c3".toList), []⟩]

/-- C130: the claim in the code that the constraints always hold with equality at the solution fails for pools that do not trade the optimized
token: a solution may leave them above their curves, and the value in between is lost. -/
theorem C130_boundary_violated : ∃ sfc, sfcOf apart [("A".toList, .optVar)] = .ok sfc ∧ Best apart sfc [(0, 0), (1, -1 / 2), (-1, 1 / 2)] ∧
    ∃ cv ∈ apart.cc.curves.zip [(0, 0), (1, -1 / 2), (-1, 1 / 2)], cv.1.k < (cv.1.x + cv.2.1) * (cv.1.y + cv.2.2) := by
  have hc : apart.cc.curves = [⟨100, 10, 10, 10, "A/B".toList, some (.str "c1".toList), []⟩,
    ⟨100, 10, 10, 10, "C/D".toList, some (.str "c2".toList), []⟩, ⟨100, 20, 20, 5, "C/D".toList, some (.str "c3".toList), []⟩] := rfl
  have htk : apart.cc.tkns = ["A".toList, "C".toList, "C".toList, "B".toList, "D".toList, "D".toList] := by
    unfold CC.tkns
    rw [hc]
    rfl
  have hA : ∀ (k x xa ya : ℝ) (cid : Option Cid), CPC.tknb (⟨k, x, xa, ya, "A/B".toList, cid, []⟩ : CPC ℝ) = "A".toList ∧
      CPC.tknq (⟨k, x, xa, ya, "A/B".toList, cid, []⟩ : CPC ℝ) = "B".toList := by
    intro k x xa ya cid
    unfold CPC.tknb CPC.tknq
    dsimp only
    decide +kernel
  have hC : ∀ (k x xa ya : ℝ) (cid : Option Cid), CPC.tknb (⟨k, x, xa, ya, "C/D".toList, cid, []⟩ : CPC ℝ) = "C".toList ∧
      CPC.tknq (⟨k, x, xa, ya, "C/D".toList, cid, []⟩ : CPC ℝ) = "D".toList := by
    intro k x xa ya cid
    unfold CPC.tknb CPC.tknq
    dsimp only
    decide +kernel
  have hnet : ∀ t (a1 b1 a2 b2 a3 b3 : ℝ), net t apart.cc.curves [(a1, b1), (a2, b2), (a3, b3)] =
      (if "A".toList = t then a1 else 0) + (if "B".toList = t then b1 else 0) + ((if "C".toList = t then a2 else 0) +
        (if "D".toList = t then b2 else 0) + ((if "C".toList = t then a3 else 0) + (if "D".toList = t then b3 else 0) + 0)) := by
    intro t a1 b1 a2 b2 a3 b3
    rw [hc]
    simp only [net, hA, hC]
  obtain ⟨sfc, hsfc⟩ : ∃ x : SFC ℝ, x = ⟨[("A".toList, .optVar)], apart.cc.tkns, "A".toList⟩ := ⟨_, rfl⟩
  have hget : ∀ t ∈ sfc.tokens, t ≠ "A".toList → sfc.get t = .ok (.amount 0) := by
    intro t ht hne
    unfold SFC.get
    rw [if_neg (not_not.2 ht), hsfc]
    unfold dictGet dictGet
    rw [if_neg (Ne.symm hne)]
    rfl
  have hgetA : sfc.get "A".toList = .ok .optVar := by
    rw [hsfc]
    unfold SFC.get dictGet
    rw [htk]
    simp
  refine ⟨sfc, ?_, ⟨by rw [hc]; rfl, ?_, ?_, ?_⟩, ⟨(⟨100, 10, 10, 10, "C/D".toList, some (.str "c2".toList), []⟩, 1, -1 / 2), ?_, ?_⟩⟩
  · rw [hsfc]
    unfold sfcOf SFC.make
    rw [htk]
    rfl
  · rw [hc]
    simp only [List.zip_cons_cons, List.zip_nil_right, List.mem_cons, List.not_mem_nil, or_false, forall_eq_or_imp, forall_eq]
    refine ⟨⟨?_, ?_, ?_, ?_, ?_⟩, ⟨?_, ?_, ?_, ?_, ?_⟩, ⟨?_, ?_, ?_, ?_, ?_⟩⟩ <;> norm_num [CPC.y]
  · intro t ht v hv
    by_cases hne : t = "A".toList
    · rw [hne, hgetA] at hv
      cases hv
    · rw [hget t ht hne] at hv
      injection hv with hv
      injection hv with hv
      rw [hnet, ← hv, if_neg (Ne.symm hne)]
      by_cases h1 : "B".toList = t <;> by_cases h2 : "C".toList = t <;> by_cases h3 : "D".toList = t <;> simp only [h1, h2, h3, if_true, if_false] <;>
        norm_num
  · intro w hw ha hn
    rw [hc] at hw
    obtain ⟨⟨a1, b1⟩, ⟨a2, b2⟩, ⟨a3, b3⟩, rfl⟩ := List.length_eq_three.1 hw
    have hB := hn "B".toList (by rw [hsfc]; show _ ∈ apart.cc.tkns; rw [htk]; simp) 0 (hget _ (by
      rw [hsfc]; show _ ∈ apart.cc.tkns; rw [htk]; simp) (by decide))
    rw [hnet] at hB
    have e1 : b1 = 0 := by
      simpa [show ("A".toList : Str) ≠ "B".toList by decide, show ("C".toList : Str) ≠ "B".toList by decide,
        show ("D".toList : Str) ≠ "B".toList by decide] using hB
    have hk := (ha (⟨100, 10, 10, 10, "A/B".toList, some (.str "c1".toList), []⟩, a1, b1) (by rw [hc]; simp)).k
    rw [e1] at hk
    norm_num [CPC.y] at hk
    rw [show sfc.optVar = "A".toList by rw [hsfc], hnet, hnet]
    simp [show ("C".toList : Str) ≠ "A".toList by decide, show ("B".toList : Str) ≠ "A".toList by decide,
        show ("D".toList : Str) ≠ "A".toList by decide]
    linarith
  · rw [hc]
    simp
  · norm_num [CPC.y]

/-! ## Example -/

theorem best_inside {c : CPC ℝ} {p sp sk : ℝ} (hp : Real.sqrt p = sp) (hk : Real.sqrt c.k = sk) (h0 : 0 < p) (hk0 : 0 < c.k)
    (hx : c.xAct = c.x) (hy : c.yAct = c.y) (hxp : 0 ≤ sk / sp) (hyp : 0 ≤ sk * sp) : best c p = (sk / sp - c.x, sk * sp - c.y) := by
  have hsp : sp ≠ 0 := by
    rw [← hp]
    exact (Real.sqrt_pos.2 h0).ne'
  have e : c.dxdyfromp (some p) = .ok (sk / sp - c.x, sk * sp - c.y, p) := by
    unfold CPC.dxdyfromp CPC.xyfromp Curve.sqrtE
    simp only [Option.getD_some]
    rw [if_neg (not_lt.2 h0.le), Py.ok_bind, if_neg (not_lt.2 hk0.le), Py.ok_bind]
    rw [show (PySqrt.sqrt p : ℝ) = sp from hp, show (PySqrt.sqrt c.k : ℝ) = sk from hk, pyDiv_ok hsp, Py.ok_bind]
    have e1 : c.xMin = 0 := by unfold CPC.xMin; rw [hx, sub_self]
    have e2 : c.yMin = 0 := by unfold CPC.yMin; rw [hy, sub_self]
    have e3 : c.xMax = none := by unfold CPC.xMax; rw [e2, if_neg (lt_irrefl 0)]
    have e4 : c.yMax = none := by unfold CPC.yMax; rw [e1, if_neg (lt_irrefl 0)]
    rw [e1, e2, e3, e4]
    simp [CPC.clamp, not_lt.2 hxp, not_lt.2 hyp, Py.ok_bind]
  unfold best
  rw [e]

/-- The two pools of the marginal price optimizer's examples, in a container with a token scale. -/
noncomputable def twoScaled : SCC ℝ := SCC.make [.plain ⟨100, 10, 10, 10, "A/B".toList, some (.str "c1".toList), []⟩,
  .plain ⟨100, 20, 20, 5, "A/B".toList, some (.str "c2".toList), []⟩] (some tenA)

/-- The theorem applies: the convex optimizer, asked for `B` with constraints on all tokens, has one solution, five `A` from the second pool to the
first. -/
theorem twoScaled_solution : ∃ sfc P, sfcOf twoScaled [("B".toList, .pays)] = .ok sfc ∧ nofees twoScaled sfc = .ok P ∧
    (∃ dx dy, P.Optimal dx dy ∧ P.objective dx dy = -5 / 3) ∧
    ∀ dx dy, P.Optimal dx dy → reported twoScaled dx dy = [(5, -10 / 3), (-5, 5 / 3)] := by
  have hpos : ∀ t, 0 < tenA t := by
    intro t
    unfold tenA
    split <;> norm_num
  have hu : Uniform twoScaled tenA := uniform_make _ hpos
  have hcc : twoScaled.cc = twoPools ℝ := rfl
  have htk : twoScaled.cc.tkns = ["A".toList, "A".toList, "B".toList, "B".toList] := by
    unfold CC.tkns
    rw [hcc, twoPools_curves]
    rfl
  obtain ⟨sfc, hsfc⟩ : ∃ x : SFC ℝ, x = ⟨[("B".toList, .pays)], twoScaled.cc.tkns, "B".toList⟩ := ⟨_, rfl⟩
  have hs : sfcOf twoScaled [("B".toList, .pays)] = .ok sfc := by
    rw [hsfc]
    unfold sfcOf SFC.make
    rw [htk]
    rfl
  have hv : sfc.optVar = "B".toList := by rw [hsfc]
  have hi : Input twoScaled.cc sfc.optVar [4 / 9] := by rw [hcc, hv]; exact twoPools_input
  obtain ⟨m, k1, k2, k3, k4, k5, k6, k7⟩ := margp_eq hi
  have hto : tokensOf twoScaled.cc sfc.optVar = ["A".toList] := by
    unfold tokensOf
    rw [htk, hv]
    decide
  have hA : ∀ (k x xa ya : ℝ) (cid : Option Cid), CPC.tknb (⟨k, x, xa, ya, "A/B".toList, cid, []⟩ : CPC ℝ) = "A".toList ∧
      CPC.tknq (⟨k, x, xa, ya, "A/B".toList, cid, []⟩ : CPC ℝ) = "B".toList := by
    intro k x xa ya cid
    unfold CPC.tknb CPC.tknq
    dsimp only
    decide +kernel
  have hBA : ("A".toList : Str) ≠ "B".toList := by decide
  have p1 : priceOf m.prices "A".toList = 4 / 9 := by
    rw [k4, hto]
    simp [priceOf, dictGet]
  have p2 : priceOf m.prices "B".toList = 1 := by
    rw [k4, hto]
    simp [priceOf, dictGet]
  have s1 : Real.sqrt (4 / 9) = 2 / 3 := by
    rw [show (4 / 9 : ℝ) = (2 / 3) ^ 2 by norm_num]
    exact Real.sqrt_sq (by norm_num)
  have s2 : Real.sqrt 100 = 10 := by
    rw [show (100 : ℝ) = 10 ^ 2 by norm_num]
    exact Real.sqrt_sq (by norm_num)
  have htr : twoScaled.cc.curves.map (tradeOf m.prices) = [(5, -10 / 3), (-5, 5 / 3)] := by
    rw [hcc, twoPools_curves]
    simp only [List.map_cons, List.map_nil, tradeOf, hA, p1, p2]
    rw [best_inside (sp := 2 / 3) (sk := 10) (by rw [div_one, s1]) s2 (by norm_num) (by norm_num) rfl (by norm_num [CPC.y]) (by norm_num) (by norm_num),
      best_inside (sp := 2 / 3) (sk := 10) (by rw [div_one, s1]) s2 (by norm_num) (by norm_num) rfl (by norm_num [CPC.y]) (by norm_num) (by norm_num)]
    norm_num [CPC.y]
  rw [htr] at k5 k6 k7
  have hnet : ∀ t, net t twoScaled.cc.curves [(5, -10 / 3), (-5, 5 / 3)] = (if "A".toList = t then (5 : ℝ) else 0) +
      (if "B".toList = t then -10 / 3 else 0) + ((if "A".toList = t then -5 else 0) + (if "B".toList = t then 5 / 3 else 0) + 0) := by
    intro t
    rw [hcc, twoPools_curves]
    simp only [net, hA]
  obtain ⟨P, h1, ⟨dx, dy, h2, h3, h4⟩, h5⟩ := C130_margp hu (sfcOf_fits hs).1 hi k1 k5 (req := fun _ => 0) (by
    intro t ht hne
    refine ⟨by rw [hsfc]; exact ht, ?_⟩
    rw [hv] at hne
    unfold SFC.get
    rw [if_neg (by rw [hsfc]; exact not_not.2 ht), hsfc]
    unfold dictGet dictGet
    rw [if_neg (Ne.symm hne)]
    rfl) (by
    intro a ha
    rw [hv, hsfc] at ha
    unfold SFC.get dictGet at ha
    rw [htk] at ha
    simp at ha) (by
    intro t ht hne
    rw [k6 t ht, hnet]
    rw [htk] at ht
    rw [hv] at hne
    have : t = "A".toList := by
      simp only [List.mem_cons, List.not_mem_nil, or_false] at ht
      tauto
    subst this
    rw [if_pos rfl, if_pos rfl, if_neg (Ne.symm hBA), if_neg (Ne.symm hBA)]
    norm_num) false
  refine ⟨sfc, P, hs, h1, ⟨dx, dy, h2, ?_⟩, h5⟩
  rw [h4, k7, hnet, hv, if_pos rfl, if_pos rfl, if_neg hBA, if_neg hBA]
  unfold tenA
  rw [if_neg (Ne.symm hBA)]
  norm_num

end Opt

end Carbon
