import Verif.Carbon.ExactUnchecked
import Verif.Prop.ExactRouter

/-!
# C159: what the exact router does with amounts that it cannot or should not fill
-/

namespace Carbon.ExactRouter

open CarbonPair (pyDiv)
open UICurve (pyDiv_ok)

variable {o : Nat → Par ℝ} {A : List Nat} {φ : Nat → ℝ → ℝ} {D : ℝ → Prop}

/-! ## The loops for amounts that are not negative -/

/-- The inner loop for a flow that is not negative: it ends with orders that all receive something, or all nothing. -/
theorem inner_up (hM : Mode o A φ D) (hdown : ∀ i ∈ A, ∀ l, D l → lvl (o i) l < 0 → φ i (lvl (o i) l) < 0)
    {swap : Nat → List Nat → Py ℝ} {t : ℝ} (ht : 0 ≤ t) (hsw : Solves o A φ D swap t) :
    ∀ (fuel : Nat) (s : List Nat) (prev : List (Nat × ℝ)), s.length < fuel → s.Nodup → s ≠ [] → (∀ i ∈ s, i ∈ A) →
    ∃ part : List (Nat × ℝ), inner swap fuel s prev = .ok part ∧ (part.map Prod.fst).Nodup ∧ (∀ p ∈ part, p.1 ∈ s ∧ 0 ≤ p.2) ∧
      (part.map fun p => φ p.1 p.2).sum = t ∧ (0 < t → part ≠ [] ∧ ∀ p ∈ part, 0 < p.2) ∧ (t = 0 → ∀ p ∈ part, p.2 = 0) := by
  intro fuel
  induction fuel with
  | zero => intro s _ h; omega
  | succ fuel ih =>
    intro s prev hlen hnd hne hsA
    obtain ⟨l, hD, hsw', hsum⟩ := hsw s hnd hne hsA
    have hpart : (s.mapM fun i => do
        let v ← swap i s
        Except.ok (i, v) : Py (List (Nat × ℝ))) = .ok (s.map fun i => (i, lvl (o i) l)) := by
      apply mapM_ok
      intro i hi
      rw [hsw' i hi]; rfl
    have hfst : (s.map fun i => (i, lvl (o i) l)).map Prod.fst = s := by
      rw [List.map_map]; exact List.map_id _
    have hphi : ((s.map fun i => (i, lvl (o i) l)).map fun p => φ p.1 p.2).sum = t := by
      rw [List.map_map]; exact hsum
    unfold inner
    rw [if_neg (by rwa [List.isEmpty_iff])]
    rw [hpart]
    simp only [Py.ok_bind]
    by_cases hall : ∀ i ∈ s, lvl (o i) l ≤ 0
    · rw [if_pos (by simpa [List.all_map] using hall)]
      have hle : (s.map fun i => φ i (lvl (o i) l)).sum ≤ 0 := by
        have := sum_le (l := s) (f := fun i => φ i (lvl (o i) l)) (g := fun _ => (0 : ℝ)) fun i hi =>
          hM.down i (hsA i hi) l hD (hall i hi)
        simpa using this
      have ht0 : t = 0 := le_antisymm (by rw [← hsum]; exact hle) ht
      have hz : ∀ i ∈ s, lvl (o i) l = 0 := by
        intro i hi
        by_contra h
        have hlt : lvl (o i) l < 0 := lt_of_le_of_ne (hall i hi) h
        have : (s.map fun i => φ i (lvl (o i) l)).sum < (s.map fun _ => (0 : ℝ)).sum :=
          List.sum_lt_sum _ _ (fun j hj => hM.down j (hsA j hj) l hD (hall j hj)) ⟨i, hi, hdown i (hsA i hi) l hD hlt⟩
        rw [hsum, ht0] at this
        simp at this
      refine ⟨_, rfl, by rw [hfst]; exact hnd, ?_, hphi, fun h => by linarith, fun _ => ?_⟩
      · intro p hp
        obtain ⟨i, hi, rfl⟩ := List.mem_map.mp hp
        exact ⟨hi, (hz i hi).ge⟩
      · intro p hp
        obtain ⟨i, hi, rfl⟩ := List.mem_map.mp hp
        exact hz i hi
    · rw [if_neg (by simpa [List.all_map] using hall)]
      have hfil : (s.filter fun i => !((s.map fun i => (i, lvl (o i) l)).any fun p => p.1 == i && decide (0 < p.2))) =
          s.filter fun i => !decide (0 < lvl (o i) l) := by
        apply List.filter_congr
        intro i hi
        congr 1
        rw [Bool.eq_iff_iff, decide_eq_true_iff, List.any_eq_true]
        constructor
        · rintro ⟨p, hp, h⟩
          obtain ⟨j, _, rfl⟩ := List.mem_map.mp hp
          simp only [Bool.and_eq_true, beq_iff_eq, decide_eq_true_eq] at h
          rw [← h.1]; exact h.2
        · intro h
          exact ⟨_, List.mem_map_of_mem hi, by simpa using h⟩
      rw [hfil]
      set s1 := s.filter fun i => !decide (0 < lvl (o i) l) with hs1
      have hsub : s1.Sublist s := List.filter_sublist
      simp only [not_forall, not_le] at hall
      obtain ⟨j, hj, hpos⟩ := hall
      have hlen1 : s1.length < s.length := by
        rw [hs1]
        exact List.length_filter_lt_length_iff_exists.mpr ⟨j, hj, by simpa using hpos⟩
      by_cases h0 : s1 = []
      · rw [h0]
        have hpos' : ∀ i ∈ s, 0 < lvl (o i) l := by
          intro i hi
          by_contra h
          have : i ∈ s1 := List.mem_filter.mpr ⟨hi, by simpa using h⟩
          rw [h0] at this
          simp at this
        have hf : ∃ f, fuel = f + 1 := ⟨fuel - 1, by have := List.length_pos_iff.mpr hne; omega⟩
        obtain ⟨f, rfl⟩ := hf
        have hst : 0 < t := by
          rw [← hsum]
          have := sum_lt hne (f := fun _ => (0 : ℝ)) (g := fun i => φ i (lvl (o i) l)) fun i hi => hM.up i (hsA i hi) l hD (hpos' i hi)
          simpa using this
        have e : inner swap (f + 1) [] (s.map fun i => (i, lvl (o i) l)) = .ok (s.map fun i => (i, lvl (o i) l)) := rfl
        rw [e]
        refine ⟨_, rfl, by rw [hfst]; exact hnd, ?_, hphi, fun _ => ⟨by simpa using hne, ?_⟩, fun h => by linarith⟩
        · intro p hp
          obtain ⟨i, hi, rfl⟩ := List.mem_map.mp hp
          exact ⟨hi, (hpos' i hi).le⟩
        · intro p hp
          obtain ⟨i, hi, rfl⟩ := List.mem_map.mp hp
          exact hpos' i hi
      · obtain ⟨part, e, h1, h2, h3, h4, h5⟩ := ih s1 (s.map fun i => (i, lvl (o i) l)) (by omega) (hnd.sublist hsub) h0 fun i hi =>
          hsA i (hsub.subset hi)
        exact ⟨part, e, h1, fun p hp => ⟨hsub.subset (h2 p hp).1, (h2 p hp).2⟩, h3, h4, h5⟩

/-- Distributing an amount that is not negative by target, over orders of which one is not empty. -/
theorem distribute_target_up {avail : List Nat} (hav : avail.Nodup) (hp : ∀ i ∈ avail, Pos (o i)) {x : ℝ} (hx : 0 ≤ x)
    (hne : ∃ i ∈ avail, (o i).y ≠ 0) :
    ∃ res, distribute o avail x true = .ok res ∧ (res.map Prod.fst).Nodup ∧ (∀ p ∈ res, p.1 ∈ avail ∧ 0 < p.2) ∧
      (res.map Prod.snd).sum = x ∧ (x = 0 → res = []) := by
  set A := avail.filter fun i => decide ((o i).y ≠ 0) with hA
  have hAav : ∀ i ∈ A, i ∈ avail ∧ (o i).y ≠ 0 := by
    intro i hi
    have := List.mem_filter.mp hi
    exact ⟨this.1, by simpa using this.2⟩
  have hpA : ∀ i ∈ A, Pos (o i) := fun i hi => hp i (hAav i hi).1
  have hyA : ∀ i ∈ A, 0 < (o i).y := fun i hi => lt_of_le_of_ne (hpA i hi).hy (Ne.symm (hAav i hi).2)
  have hAn : A.Nodup := hav.filter _
  have hAne : A ≠ [] := by
    obtain ⟨i, hi, hy⟩ := hne
    exact List.ne_nil_of_mem (List.mem_filter.mpr ⟨hi, by simpa using hy⟩)
  obtain ⟨part, e, h1, h2, h3, h4, h5⟩ := inner_up (mode_target hpA hyA) (fun _ _ _ _ h => h) hx
    (swap := fun i s => amtByTarget o i x s) (by
      intro s hs hne hsA
      exact ⟨levelT o s x, trivial, fun i hi => amtByTarget_eq o hs (fun i hi => hpA i (hsA i hi)) x hi,
        levelT_sum o hne (fun i hi => hpA i (hsA i hi)) x⟩) (A.length + 1) A [] (by omega) hAn hAne fun i hi => hi
  have eo : outer (fun amt i s => amtByTarget o i amt s) (fun (_ : Nat) (v : ℝ) => (Except.ok v : Py ℝ)) (fun i => (o i).y) avail x
      (avail.length + 1) [] = .ok part := by
    unfold outer
    simp only [List.mapM_nil]
    show ((inner (fun i s => amtByTarget o i (x - ([] : List ℝ).sum) s) _ _ []) >>= _) = _
    have e1 : (avail.filter fun i => !(([] : List (Nat × ℝ)).any fun p => p.1 == i) && decide ((o i).y ≠ 0)) = A := by
      rw [hA]
      apply List.filter_congr
      intro i _
      simp
    rw [e1, List.sum_nil, sub_zero, e, Py.ok_bind]
    have e2 : (part.filter fun p => decide ((o p.1).y + p.2 < 0)) = [] := by
      rw [List.filter_eq_nil_iff]
      intro p hp
      have := hyA p.1 (h2 p hp).1
      have := (h2 p hp).2
      simp only [decide_eq_true_eq, not_lt]
      linarith
    rw [e2]
    rfl
  have e' : distribute o avail x true = .ok (part.filter fun p => decide (p.2 ≠ 0)) := by
    unfold distribute
    simp only [if_true]
    rw [eo]
    rfl
  refine ⟨_, e', h1.sublist (List.filter_sublist.map _), ?_, ?_, ?_⟩
  · intro p hp
    obtain ⟨hp1, hp2⟩ := List.mem_filter.mp hp
    refine ⟨(hAav _ (h2 p hp1).1).1, lt_of_le_of_ne (h2 p hp1).2 ?_⟩
    exact (of_decide_eq_true hp2).symm
  · rcases hx.eq_or_lt with h0 | h0
    · rw [List.filter_eq_nil_iff.mpr (by intro p hp; simp [h5 h0.symm p hp])]
      simpa using h0
    · rw [List.filter_eq_self.mpr (by intro p hp; simpa using ((h4 h0).2 p hp).ne')]
      exact h3
  · intro h0
    exact List.filter_eq_nil_iff.mpr (by intro p hp; simp [h5 h0 p hp])

/-! ## Without the check -/

/-- With the check the function is the one of C69 and C70. -/
theorem C159_checked (orders : List (Curve ℝ)) (x : ℝ) (byTarget : Bool) (matchlevel : List Nat) (sp : Bool) :
    matchWith true orders x byTarget matchlevel sp = matchExact orders x byTarget matchlevel sp := by
  unfold matchWith matchExact
  simp only [true_and]

/-- C159: a match by source is never checked beforehand. -/
theorem C159_source (check : Bool) (orders : List (Curve ℝ)) (x : ℝ) (matchlevel : List Nat) (sp : Bool) :
    matchWith check orders x false matchlevel sp = matchExact orders x false matchlevel sp := by
  unfold matchWith matchExact
  simp only [Bool.false_eq_true, false_and, and_false, if_false]

/-- What the unchecked match by target is, from the distribution. -/
theorem unchecked_target {orders : List (Curve ℝ)} {qs : List (Par ℝ)} (eps : orders.mapM par = .ok qs)
    {matchlevel : List Nat} {avail : List Nat}
    (eav : (if matchlevel.isEmpty then List.range orders.length
      else (List.range orders.length).filter fun i => decide (i ∈ matchlevel)) = avail) {x : ℝ} {sp : Bool} {res : List (Nat × ℝ)}
    {ins : List ℝ} (e : distribute (fun i => qs.getD i ⟨0, 0, 0, 0, 0⟩) avail x true = .ok res)
    (em : (res.mapM fun p => dxdy (fun i => qs.getD i ⟨0, 0, 0, 0, 0⟩) p.1 p.2) = .ok ins) :
    matchWith false orders x true matchlevel sp = (do
      let q ← pyDiv x (res.map Prod.snd).sum
      if sp = false ∧ 1 / 20 ≤ |q - 1| then .error (.custom "RuntimeError")
      else .ok (runTotals 0 0 ((res.zip ins).map fun p => ⟨p.1.1, p.2, p.1.2, 0, 0⟩))) := by
  unfold matchWith
  rw [eps]
  simp only [Py.ok_bind, Bool.false_eq_true, false_and, if_false]
  rw [eav, e]
  simp only [Py.ok_bind]
  rw [em]
  simp only [Py.ok_bind, if_true]
  congr 1
  funext q
  simp

/-- C159: without the check, an amount that the orders hold is matched as with it. -/
theorem C159_enough_partial (orders : List (Curve ℝ)) (hg : ∀ c ∈ orders, c.Good) (matchlevel ps : List Nat)
    (hps : Positions orders matchlevel ps) (x : ℝ) (hx : x < 0) (hl : -x ≤ total ps (yAt orders)) (sp : Bool) :
    matchWith false orders x true matchlevel sp = matchExact orders x true matchlevel sp := by
  obtain ⟨qs, eps, hlen, h⟩ := setup hg
  obtain ⟨avail, eav, hperm, hnd, hav, eps2⟩ := avail_spec hps
  have hliq2 : (ps.map fun i => (qs.getD i ⟨0, 0, 0, 0, 0⟩ : Par ℝ).y).sum = total ps (yAt orders) := by
    unfold total
    refine sum_congr fun i hi => ?_
    have hi' := hav i (hperm.symm.subset hi)
    exact (getD_spec h i _ (List.getElem?_eq_getElem hi')).2.2.1
  unfold matchWith matchExact
  rw [eps]
  simp only [Py.ok_bind, Bool.false_eq_true, false_and, if_false]
  rw [eav, eps2, hliq2, abs_of_neg hx, if_neg (by
        intro hc
        obtain ⟨i, hi, hi'⟩ := List.any_eq_true.mp hc.2
        have := hps.2.1 i hi
        simp only [decide_eq_true_eq] at hi'
        omega), if_neg (by intro hc; linarith [hc.2.1]),
      if_neg (by intro hc; linarith [hc.2.1])]

/-- C159: without the check, an amount that the orders do not hold is not refused if it is less than a twentieth more: everything is sold, which
is less than asked for. More than that is an error, unless partial fills are allowed; if the orders hold nothing it is a division by zero. -/
theorem C159_short_violated (orders : List (Curve ℝ)) (hg : ∀ c ∈ orders, c.Good) (matchlevel ps : List Nat)
    (hps : Positions orders matchlevel ps) (x : ℝ) (hx : x < 0) (hl : total ps (yAt orders) < -x) :
    (0 < total ps (yAt orders) → -x < 21 / 20 * total ps (yAt orders) →
      ∃ acts, matchWith false orders x true matchlevel false = .ok acts ∧ Executable orders acts ∧
        (∀ a ∈ acts, a.index ∈ ps) ∧ (acts.map (·.output)).sum = -total ps (yAt orders)) ∧
    (0 < total ps (yAt orders) → 21 / 20 * total ps (yAt orders) ≤ -x →
      matchWith false orders x true matchlevel false = .error (.custom "RuntimeError")) ∧
    (0 < total ps (yAt orders) → matchWith false orders x true matchlevel true = matchExact orders x true matchlevel true) ∧
    (total ps (yAt orders) = 0 → ∀ sp, matchWith false orders x true matchlevel sp = .error .zeroDiv) := by
  obtain ⟨qs, eps, hlen, h⟩ := setup hg
  set o : Nat → Par ℝ := fun i => qs.getD i ⟨0, 0, 0, 0, 0⟩ with ho
  obtain ⟨avail, eav, hperm, hnd, hav, eps2⟩ := avail_spec hps
  have hin : ∀ i (hi : i ∈ avail), orders[i]? = some (orders[i]'(hav i hi)) := fun i hi =>
    List.getElem?_eq_getElem (hav i hi)
  have hget : ∀ (i : Nat) (c : Curve ℝ), orders[i]? = some c → Pos (o i) ∧ (o i).y = c.y ∧ (o i).y = yAt orders i ∧
      ∀ v, -c.y ≤ v → c.dxdy v = .ok (charge (o i) v) := getD_spec h
  have hp : ∀ i ∈ avail, Pos (o i) := fun i hi => (hget i _ (hin i hi)).1
  have hliq : (avail.map fun i => (o i).y).sum = total ps (yAt orders) := by
    unfold total
    rw [← (hperm.map (yAt orders)).sum_eq]
    exact sum_congr fun i hi => (hget i _ (hin i hi)).2.2.1
  have hliq2 : (ps.map fun i => (o i).y).sum = total ps (yAt orders) := by
    rw [← hliq, (hperm.map _).sum_eq]
  obtain ⟨res, e, hsp, _, _, hbad⟩ := distribute_target hnd hp hx
  rw [hliq] at hbad
  have hsum := hbad (by linarith)
  obtain ⟨em, hpk⟩ := package h hav hsp
  obtain ⟨hex, hidx, ho1, hi1⟩ := hpk _ rfl
  have key : ∀ sp, matchWith false orders x true matchlevel sp = _ := fun sp => unchecked_target (sp := sp) eps eav e em
  rw [hsum] at key
  have hq : 0 < total ps (yAt orders) → |x / -total ps (yAt orders) - 1| = -x / total ps (yAt orders) - 1 := by
    intro hpos
    rw [show x / -total ps (yAt orders) = -x / total ps (yAt orders) by rw [div_neg, neg_div]]
    apply abs_of_pos
    have := (one_lt_div hpos).mpr hl
    linarith
  refine ⟨fun hpos hlt => ⟨_, ?_, hex, fun a ha => hperm.subset (hidx a ha), by rw [ho1, hsum]⟩, fun hpos hge => ?_, fun hpos => ?_,
    fun h0 sp => ?_⟩
  · rw [key, pyDiv_ok (by linarith), Py.ok_bind, hq hpos, if_neg]
    rintro ⟨_, hc⟩
    have : -x / total ps (yAt orders) < 21 / 20 := (div_lt_iff₀ hpos).mpr hlt
    linarith
  · rw [key, pyDiv_ok (by linarith), Py.ok_bind, hq hpos, if_pos]
    refine ⟨rfl, ?_⟩
    have : 21 / 20 ≤ -x / total ps (yAt orders) := (le_div_iff₀ hpos).mpr hge
    linarith
  · rw [key]
    unfold matchExact
    rw [eps]
    simp only [Py.ok_bind]
    rw [← ho] at em ⊢
    have hnin : ¬(true ∧ (matchlevel.any fun i => decide (orders.length ≤ i)) = true) := by
      intro hc
      obtain ⟨i, hi, hi'⟩ := List.any_eq_true.mp hc.2
      have := hps.2.1 i hi
      simp only [decide_eq_true_eq] at hi'
      omega
    rw [eav, eps2, hliq2, abs_of_neg hx, if_neg (by simpa using hnin), if_neg (by simp),
      if_neg (by intro hc; linarith [hc.2.2]), e]
    simp only [Py.ok_bind]
    rw [em]
    simp only [Py.ok_bind, if_true]
    rw [hsum]
    congr 1
  · rw [key, h0, neg_zero]
    unfold pyDiv
    rw [if_pos rfl]
    rfl

/-! ## Amounts of the wrong sign -/

/-- C159: a positive amount by target is not refused. The orders that the trade goes to receive the amount of the token they sell, and pay for
it: the trade is the opposite of the one meant. -/
theorem C159_positive_violated (orders : List (Curve ℝ)) (hg : ∀ c ∈ orders, c.Good) (matchlevel ps : List Nat)
    (hps : Positions orders matchlevel ps) (x : ℝ) (hx : 0 < x) (hl : x ≤ total ps (yAt orders)) (check sp : Bool) :
    ∃ acts, matchWith check orders x true matchlevel sp = .ok acts ∧ acts ≠ [] ∧ (acts.map (·.index)).Nodup ∧
      (∀ a ∈ acts, a.index ∈ ps ∧ 0 < a.output ∧ a.input < 0 ∧ ∃ c, orders[a.index]? = some c ∧ c.dxdy a.output = .ok a.input) ∧
      (acts.map (·.output)).sum = x := by
  obtain ⟨qs, eps, hlen, h⟩ := setup hg
  set o : Nat → Par ℝ := fun i => qs.getD i ⟨0, 0, 0, 0, 0⟩ with ho
  obtain ⟨avail, eav, hperm, hnd, hav, eps2⟩ := avail_spec hps
  have hin : ∀ i (hi : i ∈ avail), orders[i]? = some (orders[i]'(hav i hi)) := fun i hi =>
    List.getElem?_eq_getElem (hav i hi)
  have hget : ∀ (i : Nat) (c : Curve ℝ), orders[i]? = some c → Pos (o i) ∧ (o i).y = c.y ∧ (o i).y = yAt orders i ∧
      ∀ v, -c.y ≤ v → c.dxdy v = .ok (charge (o i) v) := getD_spec h
  have hp : ∀ i ∈ avail, Pos (o i) := fun i hi => (hget i _ (hin i hi)).1
  have hliq : (avail.map fun i => (o i).y).sum = total ps (yAt orders) := by
    unfold total
    rw [← (hperm.map (yAt orders)).sum_eq]
    exact sum_congr fun i hi => (hget i _ (hin i hi)).2.2.1
  have hliq2 : (ps.map fun i => (o i).y).sum = total ps (yAt orders) := by
    rw [← hliq, (hperm.map _).sum_eq]
  have hne : ∃ i ∈ avail, (o i).y ≠ 0 := by
    by_contra hc
    push Not at hc
    have : (avail.map fun i => (o i).y).sum = 0 := by
      rw [List.map_congr_left hc]
      simp
    linarith
  obtain ⟨res, e, h1, h2, h3, _⟩ := distribute_target_up hnd hp hx.le hne
  have em : (res.mapM fun p => dxdy o p.1 p.2) = .ok (res.map fun p => charge (o p.1) p.2) := mapM_ok fun p hpm => by
    have := (hp _ (h2 p hpm).1)
    exact dxdy_eq o this (by have := this.hy; have := (h2 p hpm).2; linarith)
  have hnin : ¬((matchlevel.any fun i => decide (orders.length ≤ i)) = true) := by
    intro hc
    obtain ⟨i, hi, hi'⟩ := List.any_eq_true.mp hc
    have := hps.2.1 i hi
    simp only [decide_eq_true_eq] at hi'
    omega
  set acts := runTotals 0 0 ((res.zip (res.map fun p => charge (o p.1) p.2)).map fun p => (⟨p.1.1, p.2, p.1.2, 0, 0⟩ : Action ℝ))
    with hacts
  have hz : (res.zip (res.map fun p => charge (o p.1) p.2)).map (fun p => (⟨p.1.1, p.2, p.1.2, 0, 0⟩ : Action ℝ)) =
      res.map fun p => ⟨p.1, charge (o p.1) p.2, p.2, 0, 0⟩ := by
    clear * -
    induction res with
    | nil => rfl
    | cons a t ih => simp only [List.map_cons, List.zip_cons_cons, ih]
  have hf := runTotals_fields 0 0 (res.map fun p => (⟨p.1, charge (o p.1) p.2, p.2, 0, 0⟩ : Action ℝ))
  rw [hz] at hacts
  rw [← hacts, List.map_map] at hf
  have fi : acts.map (·.index) = res.map Prod.fst := by
    have := congrArg (List.map Prod.fst) hf
    simpa [List.map_map, Function.comp_def] using this
  have fo : acts.map (·.output) = res.map Prod.snd := by
    have := congrArg (List.map fun q : Nat × ℝ × ℝ => q.2.2) hf
    simpa [List.map_map, Function.comp_def] using this
  refine ⟨acts, ?_, ?_, by rw [fi]; exact h1, ?_, by rw [fo, h3]⟩
  · unfold matchWith
    rw [eps]
    simp only [Py.ok_bind]
    rw [← ho]
    rw [eav, eps2, hliq2, abs_of_pos hx, if_neg (fun hc => hnin hc.2.2), if_neg (by intro hc; linarith [hc.2.2.1]),
      if_neg (by intro hc; linarith [hc.2.2.1]), e]
    simp only [Py.ok_bind]
    rw [em]
    simp only [Py.ok_bind, if_true]
    rw [h3, pyDiv_ok hx.ne', div_self hx.ne']
    simp only [Py.ok_bind]
    rw [if_neg (by simp), if_neg (by norm_num), hacts, hz]
  · intro h0
    rw [h0] at fo
    have : (res.map Prod.snd).sum = 0 := by rw [← fo]; rfl
    linarith
  · intro a ha
    have : (a.index, a.input, a.output) ∈ acts.map fun a => (a.index, a.input, a.output) := List.mem_map_of_mem ha
    rw [hf] at this
    obtain ⟨p, hpm, e0⟩ := List.mem_map.mp this
    simp only [Function.comp, Prod.mk.injEq] at e0
    obtain ⟨e1, e2, e3⟩ := e0
    have hpos := hp _ (h2 p hpm).1
    have hg' := hget p.1 _ (hin _ (h2 p hpm).1)
    rw [← e1, ← e2, ← e3]
    refine ⟨hperm.subset (h2 p hpm).1, (h2 p hpm).2, ?_, _, hin _ (h2 p hpm).1, hg'.2.2.2 _ ?_⟩
    · have := charge_anti hpos (v := 0) (by simpa using hpos.Y_pos) (h2 p hpm).2
      rwa [charge_zero] at this
    · have := hpos.hy
      rw [hg'.2.1] at this
      linarith [(h2 p hpm).2]

/-- C159: matching nothing by target is a division by zero, with and without the check. -/
theorem C159_zero (orders : List (Curve ℝ)) (hg : ∀ c ∈ orders, c.Good) (matchlevel ps : List Nat)
    (hps : Positions orders matchlevel ps) (check sp : Bool) :
    matchWith check orders 0 true matchlevel sp = .error .zeroDiv := by
  obtain ⟨qs, eps, hlen, h⟩ := setup hg
  set o : Nat → Par ℝ := fun i => qs.getD i ⟨0, 0, 0, 0, 0⟩ with ho
  obtain ⟨avail, eav, hperm, hnd, hav, eps2⟩ := avail_spec hps
  have hin : ∀ i (hi : i ∈ avail), orders[i]? = some (orders[i]'(hav i hi)) := fun i hi =>
    List.getElem?_eq_getElem (hav i hi)
  have hp : ∀ i ∈ avail, Pos (o i) := fun i hi => (getD_spec h i _ (hin i hi)).1
  have hnn : 0 ≤ (ps.map fun i => (o i).y).sum := by
    rw [← (hperm.map fun i => (o i).y).sum_eq]
    apply List.sum_nonneg
    intro a ha
    obtain ⟨i, hi, rfl⟩ := List.mem_map.mp ha
    exact (hp i hi).hy
  have hnin : ¬((matchlevel.any fun i => decide (orders.length ≤ i)) = true) := by
    intro hc
    obtain ⟨i, hi, hi'⟩ := List.any_eq_true.mp hc
    have := hps.2.1 i hi
    simp only [decide_eq_true_eq] at hi'
    omega
  have e : distribute o avail 0 true = .ok [] := by
    by_cases hne : ∃ i ∈ avail, (o i).y ≠ 0
    · obtain ⟨res, e, _, _, _, h5⟩ := distribute_target_up hnd hp le_rfl hne
      rw [e, h5 rfl]
    · push Not at hne
      unfold distribute
      simp only [if_true]
      unfold outer
      simp only [List.mapM_nil]
      show (((inner (fun i s => amtByTarget o i (0 - ([] : List ℝ).sum) s) _ _ []) >>= _) >>= _) = _
      have e1 : (avail.filter fun i => !(([] : List (Nat × ℝ)).any fun p => p.1 == i) && decide ((o i).y ≠ 0)) = [] := by
        rw [List.filter_eq_nil_iff]
        intro i hi
        simp [hne i hi]
      rw [e1]
      rfl
  unfold matchWith
  rw [eps]
  simp only [Py.ok_bind]
  rw [← ho]
  rw [eav, eps2, if_neg (fun hc => hnin hc.2.2), if_neg (by intro hc; rw [abs_zero] at hc; linarith [hc.2.2.1])]
  simp only [ite_self]
  rw [e]
  simp only [Py.ok_bind, List.mapM_nil]
  show ((pyDiv (0 : ℝ) (if True then ([] : List ℝ).sum else _)) >>= _) = _
  unfold pyDiv
  simp

/-- C159: the number of orders given to the two other entries is not used, and they do the same as the function of C69 and C70 on all orders. -/
theorem C159_entries (orders : List (Curve ℝ)) (x : ℝ) (n : Nat) (sp : Bool) :
    matchBySrc orders x (supportPartial := sp) (_thresholdOrders := n) = matchExact orders x false [] sp ∧
    matchByTarget orders x (supportPartial := sp) (_thresholdOrders := n) = matchExact orders x true [] sp :=
  ⟨C159_source _ _ _ _ _, C159_checked _ _ _ _ _⟩

/-! ## Instances -/

/-- Selling between prices 1 and 4, 8 of 10 left. -/
private noncomputable def un1 : Curve ℝ := ⟨1, 1, 10, 1, 4, 8, decide ((4 : ℝ) = 1)⟩
/-- Selling between prices 4 and 9, 2 of 12 left. -/
private noncomputable def un2 : Curve ℝ := ⟨2, 1, 12, 4, 9, 2, decide ((9 : ℝ) = 4)⟩

private theorem un_good : ∀ c ∈ [un1, un2], c.Good := by
  intro c hc
  simp only [List.mem_cons, List.not_mem_nil, or_false] at hc
  rcases hc with rfl | rfl
  · unfold un1; constructor <;> norm_num
  · unfold un2; constructor <;> norm_num

private theorem un_positions : Positions [un1, un2] [] [0, 1] := ⟨List.nodup_nil, by simp, by simp [List.range_succ]⟩

private theorem un_total : total [0, 1] (yAt [un1, un2]) = 10 := by
  simp only [total, yAt, un1, un2, List.map_cons, List.map_nil, List.sum_cons, List.sum_nil,
    List.getElem?_cons_zero, List.getElem?_cons_succ, Option.map_some, Option.getD_some]
  norm_num

/-- Two orders hold 10: asked for 10.4 they sell 10 without an error. -/
example : ∃ acts, matchWith false [un1, un2] (-(52 / 5)) true [] false = .ok acts ∧ Executable [un1, un2] acts ∧
    (acts.map (·.output)).sum = -10 := by
  obtain ⟨acts, e, h1, _, h2⟩ := (C159_short_violated _ un_good [] _ un_positions (-(52 / 5)) (by norm_num) (by rw [un_total]; norm_num)).1
    (by rw [un_total]; norm_num) (by rw [un_total]; norm_num)
  rw [un_total] at h2
  exact ⟨acts, e, h1, h2⟩

/-- Asked for 10.5 they do not. -/
example : matchWith false [un1, un2] (-(21 / 2)) true [] false = .error (.custom "RuntimeError") :=
  (C159_short_violated _ un_good [] _ un_positions (-(21 / 2)) (by norm_num) (by rw [un_total]; norm_num)).2.1
    (by rw [un_total]; norm_num) (by rw [un_total]; norm_num)

/-- A positive amount is bought by the orders. -/
example : ∃ acts, matchByTarget [un1, un2] 5 = .ok acts ∧ (acts.map (·.output)).sum = 5 ∧ ∀ a ∈ acts, a.input < 0 := by
  obtain ⟨acts, e, _, _, h, h2⟩ := C159_positive_violated _ un_good [] _ un_positions 5 (by norm_num) (by rw [un_total]; norm_num) true false
  exact ⟨acts, e, h2, fun a ha => (h a ha).2.2.1⟩

end Carbon.ExactRouter
