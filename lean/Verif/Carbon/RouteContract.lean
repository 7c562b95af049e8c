import Verif.Carbon.SimulatorLemmas
import Verif.Prop.FastRouter
import Verif.Prop.ExactRouter
import Verif.Prop.AlphaRouter

/-!
# What the simulator can rely on in the routers

Whatever a router returns for well-formed orders and an amount that is zero or has the right sign.
-/

set_option linter.unusedSectionVars false

namespace Carbon.ExactRouter

/-- For the amount zero the inner loop ends with amounts that are all zero. -/
theorem inner_zero {o : Nat → Par ℝ} {A : List Nat} {φ : Nat → ℝ → ℝ} {D : ℝ → Prop} (hM : Mode o A φ D)
    (hneg : ∀ i ∈ A, ∀ l, D l → lvl (o i) l < 0 → φ i (lvl (o i) l) < 0)
    {swap : Nat → List Nat → Py ℝ} (hsw : Solves o A φ D swap 0) :
    ∀ (fuel : Nat) (s : List Nat) (prev : List (Nat × ℝ)), s.length < fuel → s.Nodup → s ≠ [] → (∀ i ∈ s, i ∈ A) →
    ∃ part, inner swap fuel s prev = .ok part ∧ ∀ p ∈ part, p.2 = 0 ∧ p.1 ∈ A := by
  intro fuel
  induction fuel with
  | zero => intro s prev h; omega
  | succ fuel ih =>
    intro s prev hlen hnd hne hA
    obtain ⟨l, hD, hs, hsum⟩ := hsw s hnd hne hA
    unfold inner
    rw [if_neg (by simpa using hne)]
    have hpart : (s.mapM fun i => do
        let v ← swap i s
        (.ok (i, v) : Py (Nat × ℝ))) = .ok (s.map fun i => (i, lvl (o i) l)) := by
      apply mapM_ok
      intro i hi
      rw [hs i hi]; rfl
    rw [hpart]
    simp only [Py.ok_bind]
    split_ifs with hall
    · refine ⟨_, rfl, ?_⟩
      intro p hp
      obtain ⟨i, hi, rfl⟩ := List.mem_map.mp hp
      refine ⟨?_, hA i hi⟩
      show lvl (o i) l = 0
      have hle : ∀ j ∈ s, lvl (o j) l ≤ 0 := by
        intro j hj
        have := List.all_eq_true.mp hall (j, lvl (o j) l) (List.mem_map.mpr ⟨j, hj, rfl⟩)
        simpa using this
      by_contra h0
      have hlt : lvl (o i) l < 0 := lt_of_le_of_ne (hle i hi) h0
      have h1 := hneg i (hA i hi) l hD hlt
      rw [sum_free hnd hi] at hsum
      have h2 : ((free i s).map fun i => φ i (lvl (o i) l)).sum ≤ 0 := by
        have := sum_le (l := free i s) (f := fun i => φ i (lvl (o i) l)) (g := fun _ => (0 : ℝ)) fun j hj =>
          hM.down j (hA j (free_mem hj)) l hD (hle j (free_mem hj))
        simpa using this
      linarith
    · have hany : ∀ i ∈ s, ((s.map fun i => (i, lvl (o i) l)).any fun p => p.1 == i && decide (0 < p.2)) =
          decide (0 < lvl (o i) l) := by
        intro i hi
        rw [Bool.eq_iff_iff, List.any_eq_true]
        simp only [Bool.and_eq_true, beq_iff_eq, decide_eq_true_eq]
        constructor
        · rintro ⟨p, hp, rfl, h⟩
          obtain ⟨j, _, rfl⟩ := List.mem_map.mp hp
          exact h
        · intro h
          exact ⟨(i, lvl (o i) l), List.mem_map.mpr ⟨i, hi, rfl⟩, rfl, h⟩
      have hfil : (s.filter fun i => !((s.map fun i => (i, lvl (o i) l)).any fun p => p.1 == i && decide (0 < p.2))) =
          s.filter fun i => !decide (0 < lvl (o i) l) := by
        apply List.filter_congr
        intro i hi
        rw [hany i hi]
      rw [hfil]
      have hex : ∃ i ∈ s, 0 < lvl (o i) l := by
        by_contra hc
        push Not at hc
        apply hall
        rw [List.all_eq_true]
        intro p hp
        obtain ⟨i, hi, rfl⟩ := List.mem_map.mp hp
        simpa using hc i hi
      obtain ⟨i, hi, hpos⟩ := hex
      apply ih
      · have : (s.filter fun i => !decide (0 < lvl (o i) l)).length < s.length := by
          rw [List.length_filter_lt_length_iff_exists]
          exact ⟨i, hi, by simpa using hpos⟩
        omega
      · exact hnd.filter _
      · intro h0
        have hallpos : ∀ j ∈ s, 0 < lvl (o j) l := by
          intro j hj
          by_contra hc
          have : j ∈ s.filter fun i => !decide (0 < lvl (o i) l) := List.mem_filter.mpr ⟨hj, by simpa using hc⟩
          rw [h0] at this
          simp at this
        have := sum_lt (l := s) hne (f := fun _ => (0 : ℝ)) (g := fun i => φ i (lvl (o i) l)) fun j hj =>
          hM.up j (hA j hj) l hD (hallpos j hj)
        rw [hsum] at this
        simp at this
      · intro j hj
        exact hA j (List.mem_filter.mp hj).1

/-- Nothing is distributed for the amount zero. -/
theorem distribute_zero {o : Nat → Par ℝ} {avail : List Nat} (hav : avail.Nodup) (hp : ∀ i ∈ avail, Pos (o i))
    (byTarget : Bool) : distribute o avail 0 byTarget = .ok [] := by
  set A := avail.filter fun i => decide ((o i).y ≠ 0) with hA
  have hAav : ∀ i ∈ A, i ∈ avail ∧ (o i).y ≠ 0 := by
    intro i hi
    have := List.mem_filter.mp hi
    exact ⟨this.1, by simpa using this.2⟩
  have hpA : ∀ i ∈ A, Pos (o i) := fun i hi => hp i (hAav i hi).1
  have hyA : ∀ i ∈ A, 0 < (o i).y := fun i hi => lt_of_le_of_ne (hpA i hi).hy (Ne.symm (hAav i hi).2)
  have hAn : A.Nodup := hav.filter _
  have key : ∀ swap : ℝ → Nat → List Nat → Py ℝ, ∀ flow : Nat → ℝ → Py ℝ,
      (A ≠ [] → ∃ part, inner (swap 0) (A.length + 1) A [] = .ok part ∧ ∀ p ∈ part, p.2 = 0 ∧ p.1 ∈ A) →
      ∃ part, outer swap flow (fun i => (o i).y) avail 0 (avail.length + 1) [] = .ok part ∧ ∀ p ∈ part, p.2 = 0 := by
    intro swap flow h
    have hmain : ∃ part, inner (swap 0) (A.length + 1) A [] = .ok part ∧ ∀ p ∈ part, p.2 = 0 ∧ p.1 ∈ A := by
      by_cases h0 : A = []
      · rw [h0]; exact ⟨[], rfl, by simp⟩
      · exact h h0
    obtain ⟨part, e, hz⟩ := hmain
    refine ⟨part, ?_, fun p hp => (hz p hp).1⟩
    unfold outer
    have e1 : (([] : List (Nat × ℝ)).mapM fun p => flow p.1 p.2) = .ok [] := rfl
    rw [e1]
    simp only [Py.ok_bind, List.sum_nil, sub_zero, List.any_nil, Bool.not_false, Bool.true_and, List.nil_append]
    rw [← hA, e]
    simp only [Py.ok_bind]
    rw [if_pos]
    rw [List.isEmpty_iff, List.filter_eq_nil_iff]
    intro p hp
    have := hyA p.1 (hz p hp).2
    rw [(hz p hp).1]
    simp only [add_zero, decide_eq_true_eq, not_lt]
    exact this.le
  have fin : ∀ part : List (Nat × ℝ), (∀ p ∈ part, p.2 = 0) → part.filter (fun p => decide (p.2 ≠ 0)) = [] := by
    intro part hz
    rw [List.filter_eq_nil_iff]
    intro p hp
    simpa using hz p hp
  unfold distribute
  cases byTarget with
  | true =>
    obtain ⟨part, e, hz⟩ := key (fun amt i s => amtByTarget o i amt s) (fun _ v => .ok v) fun hne =>
      inner_zero (mode_target hpA hyA) (fun _ _ _ _ h => h) (by
        intro s hs hne hsA
        exact ⟨levelT o s 0, trivial, fun i hi => amtByTarget_eq o hs (fun i hi => hpA i (hsA i hi)) 0 hi,
          levelT_sum o hne (fun i hi => hpA i (hsA i hi)) 0⟩) _ A [] (by omega) hAn hne (fun _ h => h)
    simp only [if_true]
    rw [e]
    simp only [Py.ok_bind]
    rw [fin part hz]
  | false =>
    obtain ⟨part, e, hz⟩ := key (fun amt i s => amtBySrc o i amt s) (fun i v => dxdy o i v) fun hne =>
      inner_zero (mode_source hpA hyA) (fun i hi l hl h => by
        have hi := hpA i hi
        have := charge_anti hi (v := lvl (o i) l) (by rw [lvl_spec hi]; exact mul_pos hl hi.r_pos) h
        rw [charge_zero] at this
        linarith) (by
        intro s hs hne hsA
        have hpS : ∀ i ∈ s, Pos (o i) := fun i hi => hpA i (hsA i hi)
        obtain ⟨h1, h2⟩ := levelS_sum o hne hpS (le_refl (0 : ℝ))
        refine ⟨1 / levelS o s 0, by positivity, fun i hi => amtBySrc_eq o hs hpS le_rfl hi, ?_⟩
        have := sum_const_mul (-1) (fun i => charge (o i) (lvl (o i) (1 / levelS o s 0))) s
        rw [h2] at this
        simpa using this) _ A [] (by omega) hAn hne (fun _ h => h)
    simp only [Bool.false_eq_true, if_false]
    rw [e]
    simp only [Py.ok_bind]
    rw [fin part hz]

/-- Whatever the exact router returns for an amount that is zero or has the right sign can be executed. -/
theorem matchExact_executable {orders : List (Curve ℝ)} (hg : ∀ c ∈ orders, c.Good) {matchlevel ps : List Nat}
    (hps : Positions orders matchlevel ps) {x : ℝ} {byTarget : Bool} (hx : if byTarget then x ≤ 0 else 0 ≤ x) {sp : Bool}
    {acts : List (Action ℝ)} (h : matchExact orders x byTarget matchlevel sp = .ok acts) :
    Executable orders acts ∧ ∀ a ∈ acts, a.index ∈ ps := by
  obtain ⟨qs, eps, hlen, hq⟩ := setup hg
  obtain ⟨avail, eav, hperm, hnd, hav, eps2⟩ := avail_spec hps
  have hin : ∀ i (hi : i ∈ avail), orders[i]? = some (orders[i]'(hav i hi)) := fun i hi =>
    List.getElem?_eq_getElem (hav i hi)
  have hp : ∀ i ∈ avail, Pos (qs.getD i ⟨0, 0, 0, 0, 0⟩) := fun i hi => (getD_spec hq i _ (hin i hi)).1
  have hsplit : ∀ x : ℝ, (if byTarget then x ≤ 0 else 0 ≤ x) →
      ∃ res, distribute (fun i => qs.getD i ⟨0, 0, 0, 0, 0⟩) avail x byTarget = .ok res ∧
        IsSplit (fun i => qs.getD i ⟨0, 0, 0, 0, 0⟩) avail res := by
    intro x hx
    by_cases h0 : x = 0
    · rw [h0]; exact ⟨[], distribute_zero hnd hp byTarget, by simp [IsSplit]⟩
    · cases byTarget with
      | true =>
        obtain ⟨res, e, hs, _⟩ := distribute_target hnd hp (lt_of_le_of_ne hx h0)
        exact ⟨res, e, hs⟩
      | false =>
        obtain ⟨res, e, hs, _⟩ := distribute_source hnd hp (lt_of_le_of_ne hx (Ne.symm h0))
        exact ⟨res, e, hs⟩
  unfold matchExact at h
  rw [eps] at h
  simp only [Py.ok_bind] at h
  rw [eav, eps2] at h
  generalize (List.map (fun i => (qs.getD i ⟨0, 0, 0, 0, 0⟩ : Par ℝ).y) ps).sum = L at h
  split at h
  · cases h
  split at h
  · cases h
  generalize hx' : (if byTarget = true ∧ L - |x| < 0 ∧ L = 0 then (0 : ℝ) else x) = x' at h
  have hs' : if byTarget then x' ≤ 0 else 0 ≤ x' := by
    rw [← hx']
    by_cases hc : byTarget = true ∧ L - |x| < 0 ∧ L = 0
    · rw [if_pos hc]; simp
    · rw [if_neg hc]; exact hx
  obtain ⟨res, e, hsp⟩ := hsplit x' hs'
  rw [e] at h
  simp only [Py.ok_bind] at h
  obtain ⟨em, hpk⟩ := package hq hav hsp
  rw [em] at h
  simp only [Py.ok_bind] at h
  generalize (if byTarget = true then (res.map Prod.snd).sum else _) = act at h
  rw [Py.bind_eq_ok] at h
  obtain ⟨_, _, h⟩ := h
  split at h
  · cases h
  split at h
  · cases h
  cases h
  obtain ⟨hex, hidx, _⟩ := hpk _ rfl
  exact ⟨hex, fun a ha => hperm.subset (hidx a ha)⟩

end Carbon.ExactRouter

namespace Carbon.FastRouter

/-- Quotes that take nothing lead to no action. -/
theorem loop_zero {K : Type} [Field K] [LinearOrder K] {trade : K → Curve K → Py (FRate K)} {orders : List (Curve K)} {qs : List (FQuote K)}
    (h : ∀ q ∈ qs, q.rate.input = 0) : loop trade orders 0 qs = .ok [] := by
  induction qs with
  | nil => rfl
  | cons q rest ih =>
    have h0 := h q List.mem_cons_self
    have ih := ih fun q hq => h q (List.mem_cons_of_mem _ hq)
    have hf : filter q.rate = false := by simp [filter, h0]
    unfold loop
    rw [h0, if_neg (lt_irrefl _), if_pos rfl, hf]
    simpa using ih

/-- The router fails for the amount zero, and otherwise its result comes from some ordering of the quotes. -/
theorem matchAmount_cases {K : Type} [Field K] [LinearOrder K] [IsStrictOrderedRing K]
    {trade : K → Curve K → Py (FRate K)} {cmp : FQuote K → FQuote K → Int} {orders : List (Curve K)} {x : K}
    {acts : List (Action K)} (h : matchAmount trade cmp orders x = .ok acts) :
    ∃ qs, QuotesFor trade |x| orders qs ∧ matchQuotes trade orders |x| qs = .ok acts := by
  unfold matchAmount at h
  rw [Py.bind_eq_ok] at h
  obtain ⟨l, hl, h⟩ := h
  exact ⟨_, ⟨l, hl, List.perm_insertionSort _ _⟩, h⟩

theorem matchQuotes_zero {K : Type} [Field K] [LinearOrder K] [IsStrictOrderedRing K]
    {trade : K → Curve K → Py (FRate K)} {orders : List (Curve K)} {f : Curve K → FRate K}
    (hf : ∀ o ∈ orders, trade 0 o = .ok (f o)) (h0 : ∀ o ∈ orders, (f o).input = 0) {qs : List (FQuote K)}
    (hq : QuotesFor trade 0 orders qs) : matchQuotes trade orders 0 qs = .error .index := by
  unfold matchQuotes
  rw [loop_zero]
  · rfl
  · intro q hm
    obtain ⟨o, ho, hr⟩ := qf_mem hf hq hm
    rw [hr]; exact h0 o (List.mem_of_getElem? ho)

end Carbon.FastRouter

namespace Carbon.Sim

/-- A result the simulator can execute: distinct positions, every order sells at most what it holds, and the totals of
the last route are the sums. -/
structure Sound (swap : Bool) (cs : List (Curve ℝ)) (routes : List (Action ℝ)) (last : Action ℝ) : Prop where
  nodup : (routes.map Action.index).Nodup
  each : ∀ a ∈ routes, ∃ c, cs[a.index]? = some c ∧ 0 < sold swap a.input a.output ∧ sold swap a.input a.output ≤ c.y ∧
    0 < bought swap a.input a.output
  soldTot : sold swap last.totalInput last.totalOutput = (routes.map fun a => sold swap a.input a.output).sum
  boughtTot : bought swap last.totalInput last.totalOutput = (routes.map fun a => bought swap a.input a.output).sum
  out : last.totalOutput < 0
  inp : 0 < last.totalInput

theorem getLast_get {α : Type} {l : List α} {a : α} (h : l.getLast? = some a) : l[l.length - 1]? = some a := by
  rw [List.getLast?_eq_getElem?] at h; exact h

theorem sum_neg_list {α : Type} {l : List α} (hl : l ≠ []) {f : α → ℝ} (h : ∀ a ∈ l, f a < 0) : (l.map f).sum < 0 := by
  have := ExactRouter.sum_lt (l := l) hl (f := f) (g := fun _ => (0 : ℝ)) h
  simpa using this

theorem sum_pos_list {α : Type} {l : List α} (hl : l ≠ []) {f : α → ℝ} (h : ∀ a ∈ l, 0 < f a) : 0 < (l.map f).sum := by
  have := ExactRouter.sum_lt (l := l) hl (f := fun _ => (0 : ℝ)) (g := f) h
  simpa using this

theorem Executable.sound {cs : List (Curve ℝ)} (hg : ∀ c ∈ cs, c.Good) {acts : List (Action ℝ)} {last : Action ℝ}
    (h : ExactRouter.Executable cs acts) (hl : acts.getLast? = some last) : Sound false cs acts last := by
  obtain ⟨h1, h2, h3⟩ := h
  have hne : acts ≠ [] := by intro e; rw [e] at hl; cases hl
  have hin : ∀ a ∈ acts, 0 < a.input := by
    intro a ha
    obtain ⟨c, hc, e1, e2, e3⟩ := h3 a ha
    obtain ⟨p, _, hp, hpy, hd⟩ := ExactRouter.par_ok (hg c (List.mem_of_getElem? hc))
    rw [hd _ e1] at e3
    rw [← Except.ok.inj e3]
    have := ExactRouter.charge_anti hp (v := a.output) (w := 0) (hp.Y_end (by rw [hpy]; exact e1)) e2
    rwa [ExactRouter.charge_zero] at this
  have hout : ∀ a ∈ acts, a.output < 0 := fun a ha => by
    obtain ⟨c, _, _, e2, _⟩ := h3 a ha; exact e2
  obtain ⟨t1, t2⟩ := h2 _ _ (getLast_get hl)
  have hlen : 0 < acts.length := List.length_pos_of_ne_nil hne
  have htk : acts.take (acts.length - 1 + 1) = acts := by
    rw [List.take_of_length_le]; omega
  rw [htk] at t1 t2
  have n1 := sum_pos_list hne hin
  have n2 := sum_neg_list hne hout
  refine ⟨h1, ?_, ?_, ?_, by rw [t2]; exact n2, by rw [t1]; exact n1⟩
  · intro a ha
    obtain ⟨c, hc, e1, e2, e3⟩ := h3 a ha
    refine ⟨c, hc, abs_pos.mpr e2.ne, ?_, abs_pos.mpr (hin a ha).ne'⟩
    show |a.output| ≤ c.y
    rw [abs_of_neg e2]; linarith
  · show |last.totalOutput| = (acts.map fun a => |a.output|).sum
    rw [t2, abs_of_neg n2]
    have := ExactRouter.sum_const_mul (-1) Action.output acts
    have e : (acts.map fun a => |a.output|).sum = (acts.map fun a => -1 * a.output).sum :=
      ExactRouter.sum_congr fun a ha => by rw [abs_of_neg (hout a ha)]; ring
    rw [e, this]; ring
  · show |last.totalInput| = (acts.map fun a => |a.input|).sum
    rw [t1, abs_of_pos n1]
    exact (ExactRouter.sum_congr fun a ha => abs_of_pos (hin a ha)).symm

theorem good_sane {c : Curve ℝ} (h : c.Good) : FastRouter.Sane c := ⟨h.hB, h.hS, h.hz, h.hy0⟩

/-- The common part of both directions of the fast router. -/
theorem fast_sound {swap : Bool} {trade : ℝ → Curve ℝ → Py (FRate ℝ)} {cs : List (Curve ℝ)} {x : ℝ}
    {qs : List (FQuote ℝ)} {acts : List (Action ℝ)} {last : Action ℝ} (hl : acts.getLast? = some last)
    (hm : FastRouter.matchQuotes trade cs x qs = .ok acts) (hd : FastRouter.Distinct cs acts)
    (he : ∀ a ∈ acts, ∃ c, cs[a.index]? = some c ∧ 0 < a.input ∧ 0 < a.output ∧
      (if swap then a.input else a.output) ≤ c.y) : Sound swap cs acts last := by
  have hne : acts ≠ [] := by intro e; rw [e] at hl; cases hl
  obtain ⟨t1, t2⟩ := FastRouter.C25_totals x qs acts hm _ _ (getLast_get hl)
  have hlen : 0 < acts.length := List.length_pos_of_ne_nil hne
  have htk : acts.take (acts.length - 1 + 1) = acts := by
    rw [List.take_of_length_le]; omega
  rw [htk] at t1 t2
  rw [if_pos (by omega)] at t2
  have hin : ∀ a ∈ acts, 0 < a.input := fun a ha => by obtain ⟨c, _, e, _⟩ := he a ha; exact e
  have hout : ∀ a ∈ acts, 0 < a.output := fun a ha => by obtain ⟨c, _, _, e, _⟩ := he a ha; exact e
  have n1 := sum_pos_list hne hin
  have n2 := sum_pos_list hne hout
  have s1 : |last.totalInput| = (acts.map fun a => |a.input|).sum := by
    rw [t1, abs_of_pos n1]
    exact (ExactRouter.sum_congr fun a ha => abs_of_pos (hin a ha)).symm
  have s2 : |last.totalOutput| = (acts.map fun a => |a.output|).sum := by
    rw [t2, neg_one_mul, abs_neg, abs_of_pos n2]
    exact (ExactRouter.sum_congr fun a ha => abs_of_pos (hout a ha)).symm
  refine ⟨hd.1, ?_, ?_, ?_, by rw [t2]; linarith, by rw [t1]; exact n1⟩
  · intro a ha
    obtain ⟨c, hc, e1, e2, e3⟩ := he a ha
    refine ⟨c, hc, ?_⟩
    unfold sold bought
    rw [abs_of_pos e1, abs_of_pos e2]
    cases swap
    · exact ⟨e2, e3, e1⟩
    · exact ⟨e1, e3, e2⟩
  · unfold sold; cases swap
    · exact s2
    · exact s1
  · unfold bought; cases swap
    · exact s1
    · exact s2

end Carbon.Sim

namespace Carbon.AlphaRouter

variable {K : Type} [Field K] [LinearOrder K]

theorem selLoop_positions {len : Nat} {t mf mx : K} {full : Bool} {num : Nat} {l : List Nat} (items : List K) (j : Nat)
    (tl : List (Nat × K)) (hn : (tl.map Prod.fst).Nodup) (hlt : ∀ p ∈ tl, p.1 < j + num ∧ p.1 < len)
    (h : selLoop len t mf mx full num (enumFrom j items) tl = .ok (some l)) : l.Nodup ∧ ∀ i ∈ l, i < len := by
  induction items generalizing j tl with
  | nil => cases h
  | cons v rest ih =>
    have done : (assertionChecks full (sumMe tl) t mf tl num >>= fun _ =>
        (Except.ok (some (tl.map Prod.fst)) : Py (Option (List Nat)))) = .ok (some l) → l.Nodup ∧ ∀ i ∈ l, i < len := by
      intro h
      rw [Py.bind_eq_ok] at h
      obtain ⟨_, _, h⟩ := h
      cases h
      refine ⟨hn, fun i hi => ?_⟩
      obtain ⟨p, hp, rfl⟩ := List.mem_map.mp hi
      exact (hlt p hp).2
    unfold enumFrom at h
    unfold selLoop at h
    dsimp only at h
    split at h
    · exact done h
    · split at h
      · exact done h
      · split at h
        · rename_i hj
          rw [Py.bind_eq_ok] at h
          obtain ⟨m, _, h⟩ := h
          rw [Py.bind_eq_ok] at h
          obtain ⟨next, hnx, h⟩ := h
          have hni : next.1 = j + num := by
            unfold getI at hnx
            split at hnx
            · cases hnx
            · rename_i p hp
              cases hnx
              simpa using List.find?_some hp
          split at h
          · exact done h
          · split at h
            · refine ih (j + 1) _ ?_ ?_ h
              · rw [List.map_append, List.nodup_append]
                refine ⟨hn.sublist (List.erase_sublist.map _), by simp, ?_⟩
                intro a ha b hb
                obtain ⟨p, hp, rfl⟩ := List.mem_map.mp ha
                have := (hlt p (List.mem_of_mem_erase hp)).1
                simp at hb
                omega
              · intro p hp
                rcases List.mem_append.mp hp with hp | hp
                · have := hlt p (List.mem_of_mem_erase hp)
                  omega
                · simp at hp
                  rw [hp, hni]
                  omega
            · refine ih (j + 1) _ hn ?_ h
              intro p hp
              have := hlt p hp
              omega
        · exact done h

/-- Whatever the numbers, the selector returns distinct positions. -/
theorem selector_positions {numbers : List K} {t : K} {num : Nat} {l : List Nat}
    (h : selector numbers t num = .ok (some l)) : l.Nodup ∧ ∀ i ∈ l, i < numbers.length := by
  unfold selector at h
  rw [Py.bind_eq_ok] at h
  obtain ⟨mx, _, h⟩ := h
  have hf : ((enumFrom 0 numbers).take num).map Prod.fst = (List.range' 0 numbers.length).take num := by
    rw [List.map_take, enumFrom_fst]
  refine selLoop_positions numbers 0 _ ?_ ?_ h
  · rw [hf]
    exact (List.nodup_range' (step := 1)).sublist (List.take_sublist _ _)
  · intro p hp
    have : p.1 ∈ (List.range' 0 numbers.length).take num := by
      rw [← hf]; exact List.mem_map_of_mem hp
    rw [List.mem_take_iff_getElem] at this
    obtain ⟨i, hi, e⟩ := this
    rw [List.getElem_range'] at e
    rw [List.length_range'] at hi
    omega

/-- Whatever the amounts, the alpha router hands distinct positions to the exact router. -/
theorem selected_positions {orders : List (Curve ℝ)} {hyp : List ℝ} (hl : hyp.length = orders.length) {f : Nat → ℝ} {t : ℝ}
    {num : Nat} {sel : Option (List Nat)} {ps : List Nat} (h1 : selector ((rank hyp).map f) t num = .ok sel)
    (h2 : selected (rank hyp) sel = .ok ps) :
    ExactRouter.Positions orders ps (if ps.isEmpty then List.range orders.length else ps) := by
  cases sel with
  | none => cases h2
  | some l =>
    cases h2
    obtain ⟨e1, e2⟩ := selector_positions h1
    have hr := rank_perm hyp
    rw [hl] at hr
    have hlen : (rank hyp).length = orders.length := by rw [hr.length_eq, List.length_range]
    rw [List.length_map, hlen] at e2
    have hget : ∀ i ∈ l, ∃ h : i < (rank hyp).length, (rank hyp).getD i 0 = (rank hyp)[i] := by
      intro i hi
      have : i < (rank hyp).length := by rw [hlen]; exact e2 i hi
      exact ⟨this, by simp [List.getD, this]⟩
    refine ⟨?_, ?_, rfl⟩
    · apply List.Nodup.map_on _ e1
      intro a ha b hb e
      obtain ⟨ha', ea⟩ := hget a ha
      obtain ⟨hb', eb⟩ := hget b hb
      rw [ea, eb] at e
      exact ((hr.nodup_iff.mpr List.nodup_range).getElem_inj_iff).mp e
    · intro i hi
      obtain ⟨j, hj, rfl⟩ := List.mem_map.mp hi
      obtain ⟨hj', ej⟩ := hget j hj
      rw [ej]
      exact List.mem_range.mp (hr.mem_iff.mp (List.getElem_mem hj'))

theorem mapM_length {α β : Type} {f : α → Py β} {l : List α} {bs : List β} (h : l.mapM f = .ok bs) : bs.length = l.length := by
  induction l generalizing bs with
  | nil => cases h; rfl
  | cons a l ih =>
    rw [List.mapM_cons, Py.bind_eq_ok] at h
    obtain ⟨b, _, h⟩ := h
    rw [Py.bind_eq_ok] at h
    obtain ⟨bs', hb, h⟩ := h
    cases h
    simp [ih hb]

theorem matchByTarget_exact {orders : List (Curve ℝ)} {x : ℝ} {thr : Option Nat} {acts : List (Action ℝ)}
    (h : matchByTarget orders x thr false = .ok acts) :
    ∃ ml ps, ExactRouter.Positions orders ml ps ∧ ExactRouter.matchExact orders x true ml false = .ok acts := by
  unfold matchByTarget at h
  rw [Py.bind_eq_ok] at h
  obtain ⟨hyp, hh, h⟩ := h
  rw [Py.bind_eq_ok] at h
  obtain ⟨sel, hs, h⟩ := h
  rw [Py.bind_eq_ok] at h
  obtain ⟨ps, hp, h⟩ := h
  refine ⟨ps, _, selected_positions (mapM_length hh) hs hp, ?_⟩
  simpa [adjust] using h

theorem matchBySrc_exact {orders : List (Curve ℝ)} {x : ℝ} {thr : Option Nat} {acts : List (Action ℝ)}
    (h : matchBySrc orders x thr false = .ok acts) :
    ∃ ml ps, ExactRouter.Positions orders ml ps ∧ ExactRouter.matchExact orders x false ml false = .ok acts := by
  unfold matchBySrc at h
  rw [Py.bind_eq_ok] at h
  obtain ⟨hyp, hh, h⟩ := h
  rw [Py.bind_eq_ok] at h
  obtain ⟨vals, _, h⟩ := h
  dsimp only at h
  cases thr with
  | none =>
    dsimp only at h
    split at h <;> cases h
  | some num =>
    dsimp only at h
    rw [Py.bind_eq_ok] at h
    obtain ⟨sel, hs, h⟩ := h
    rw [Py.bind_eq_ok] at h
    obtain ⟨ps, hp, h⟩ := h
    refine ⟨ps, _, selected_positions (mapM_length hh) hs hp, ?_⟩
    simpa [adjust] using h

end Carbon.AlphaRouter

namespace Carbon.Sim

/-- What any router returns for well-formed orders can be executed. -/
theorem route_sound {m : Method} {cs : List (Curve ℝ)} {x : ℝ} {byTarget : Bool} {thr : Option Nat} {sp : Bool}
    {acts : List (Action ℝ)} {last : Action ℝ} (hg : ∀ c ∈ cs, c.Good) (hx : if byTarget then x ≤ 0 else 0 ≤ x)
    (hsp : m = .alpha → sp = false) (h : route m cs x byTarget thr sp = .ok acts) (hl : acts.getLast? = some last) :
    Sound (byTarget && decide (m = .fast)) cs acts last := by
  rw [Bool.and_comm]
  have exact' : ∀ {ml ps : List Nat}, ExactRouter.Positions cs ml ps → ExactRouter.matchExact cs x byTarget ml sp = .ok acts →
      Sound false cs acts last := fun hps he =>
    Executable.sound hg (ExactRouter.matchExact_executable hg hps hx he).1 hl
  have fast0 : ∀ {trade : ℝ → Curve ℝ → Py (FRate ℝ)} {qs : List (FQuote ℝ)} {f : Curve ℝ → FRate ℝ},
      (∀ o ∈ cs, trade 0 o = .ok (f o)) → (∀ o ∈ cs, (f o).input = 0) → FastRouter.QuotesFor trade 0 cs qs →
      FastRouter.matchQuotes trade cs 0 qs = .ok acts → False := fun h1 h2 h3 h4 => by
    rw [FastRouter.matchQuotes_zero h1 h2 h3] at h4
    cases h4
  cases m with
  | exact =>
    have h : ExactRouter.matchExact cs x byTarget [] sp = .ok acts := by
      unfold route at h; cases byTarget <;> exact h
    exact exact' (ps := List.range cs.length) ⟨List.nodup_nil, by simp, rfl⟩ h
  | fast =>
    cases byTarget with
    | true =>
      obtain ⟨qs, hq, hm⟩ := FastRouter.matchAmount_cases (x := x) h
      rcases (abs_nonneg x).eq_or_lt with h0 | h0
      · rw [← h0] at hq hm
        exact (fast0 (fun o ho => FastRouter.rateByTarget_ok (good_sane (hg o ho)) 0)
          (fun o ho => min_eq_left (hg o ho).hy0) hq hm).elim
      · obtain ⟨h1, h2, _⟩ := FastRouter.C25_by_target (fun o ho => good_sane (hg o ho)) _ h0 qs hq acts hm
        refine fast_sound hl hm h1 fun a ha => ?_
        obtain ⟨c, hc, e1, e2, e3, _⟩ := h2 a ha
        exact ⟨c, hc, e1, e3, e2⟩
    | false =>
      obtain ⟨qs, hq, hm⟩ := FastRouter.matchAmount_cases (x := x) h
      rcases (abs_nonneg x).eq_or_lt with h0 | h0
      · rw [← h0] at hq hm
        exact (fast0 (fun o ho => FastRouter.rateBySource_ok (good_sane (hg o ho)) le_rfl)
          (fun o ho => min_eq_left (FastRouter.cost_nonneg (good_sane (hg o ho)) (hg o ho).hy0 le_rfl)) hq hm).elim
      · obtain ⟨h1, h2, _⟩ := FastRouter.C25_by_source (fun o ho => good_sane (hg o ho)) _ h0 qs hq acts hm
        refine fast_sound hl hm h1 fun a ha => ?_
        obtain ⟨c, hc, e1, e2, e3, _⟩ := h2 a ha
        exact ⟨c, hc, e1, e2, e3⟩
  | alpha =>
    have hsp := hsp rfl
    subst hsp
    cases byTarget with
    | true =>
      obtain ⟨ml, ps, h1, h2⟩ := AlphaRouter.matchByTarget_exact h
      exact exact' h1 h2
    | false =>
      obtain ⟨ml, ps, h1, h2⟩ := AlphaRouter.matchBySrc_exact h
      exact exact' h1 h2

end Carbon.Sim
