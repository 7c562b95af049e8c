import Mathlib.Tactic.FieldSimp
import Mathlib.Tactic.Linarith
import Mathlib.Tactic.Positivity
import Mathlib.Algebra.Order.BigOperators.Group.List
import Mathlib.Algebra.BigOperators.Ring.List
import Verif.Carbon.OrderUILemmas
import Verif.Prop.ArbCycle

/-!
# C47: running an arbitrage cycle

The capacities, prices and amounts below are computed from the public data of the edges (`amount_in`, `amount_out`), not by the
functions of the run.
-/

set_option linter.unusedSectionVars false

namespace Carbon

open CarbonPair (pyDiv)

namespace Arb

section
variable {K : Type} [Field K] [LinearOrder K] [IsStrictOrderedRing K]

/-- Parallel edges that can be traded: at least one, with positive amounts. -/
def Tradable (es : List (Edge K)) : Prop := es ≠ [] ∧ ∀ e ∈ es, 0 < e.amountIn ∧ 0 < e.amountOut

/-- The capacity of parallel edges. -/
def capacity (es : List (Edge K)) : K := (es.map Edge.amountIn).sum

/-- The average price, output per input, of parallel edges. -/
def avgPrice (es : List (Edge K)) : K := (es.map Edge.amountOut).sum / (es.map Edge.amountIn).sum

theorem sum_map_pos {α : Type} {l : List α} {f : α → K} (hne : l ≠ []) (h : ∀ a ∈ l, 0 < f a) : 0 < (l.map f).sum := by
  induction l with
  | nil => exact absurd rfl hne
  | cons a l ih =>
    rw [List.map_cons, List.sum_cons]
    have ha := h a (by simp)
    by_cases hl : l = []
    · subst hl; simpa using ha
    · have := ih hl (fun b hb => h b (List.mem_cons_of_mem _ hb))
      linarith

theorem Tradable.capacity_pos {es : List (Edge K)} (h : Tradable es) : 0 < capacity es :=
  sum_map_pos h.1 fun e he => (h.2 e he).1

theorem Tradable.price_pos {es : List (Edge K)} (h : Tradable es) : 0 < avgPrice es :=
  div_pos (sum_map_pos h.1 fun e he => (h.2 e he).2) h.capacity_pos

theorem eps_pos : (0 : K) < eps := by unfold eps; positivity

theorem Edge.out_ok {e : Edge K} (hp : 0 < e.amountIn) {f : K} (h0 : 0 ≤ f) (h1 : f ≤ 1) :
    e.out (e.amountIn * f) = .ok (e.amountOut * f) := by
  have he := eps_pos (K := K)
  have h2 : e.amountIn * f ≤ e.amountIn := by nlinarith
  have h3 : 0 ≤ e.amountIn * f := by positivity
  unfold Edge.out
  rw [if_neg (by push Not; intro _; linarith), if_neg (by push Not; intro _; linarith), UICurve.pyDiv_ok hp.ne']
  congr 1
  field_simp

theorem pushAll_ok {es : List (Edge K)} (h : ∀ e ∈ es, 0 < e.amountIn) {f : K} (h0 : 0 ≤ f) (h1 : f ≤ 1) :
    AG.pushAll es ((es.map Edge.amountIn).map (· * f)) = .ok (es.map fun e => e.amountOut * f) := by
  unfold AG.pushAll
  induction es with
  | nil => rfl
  | cons e es ih =>
    simp only [List.map_cons, List.zip_cons_cons, List.mapM_cons]
    rw [Edge.out_ok (h e (by simp)) h0 h1, Py.ok_bind, ih fun e he => h e (List.mem_cons_of_mem _ he), Py.ok_bind]
    rfl

theorem pushAll_full {es : List (Edge K)} (h : ∀ e ∈ es, 0 < e.amountIn) :
    AG.pushAll es (es.map Edge.amountIn) = .ok (es.map Edge.amountOut) := by
  have := pushAll_ok h (f := 1) zero_le_one le_rfl
  simp only [mul_one, List.map_map] at this
  exact this

theorem sum_scaled (es : List (Edge K)) (f : K) :
    (es.map fun e => e.amountOut * f).sum = (es.map Edge.amountOut).sum * f := by
  induction es with
  | nil => simp
  | cons e es ih => simp [ih, add_mul]

/-- The amount that arrives at step `i` if `a` is put in at the beginning. -/
def arriving (a : K) (steps : List (List (Edge K))) (i : Nat) : K := a * ((steps.take i).map avgPrice).prod

/-- `a` can be pushed through all steps. -/
def Fits (a : K) (steps : List (List (Edge K))) : Prop :=
  ∀ i (h : i < steps.length), arriving a steps i ≤ capacity (steps[i])

/-- Some step is used to capacity. -/
def Saturates (a : K) (steps : List (List (Edge K))) : Prop :=
  ∃ i, ∃ h : i < steps.length, arriving a steps i = capacity (steps[i])

theorem arriving_append {a : K} {l : List (List (Edge K))} {es : List (Edge K)} {i : Nat} (h : i ≤ l.length) :
    arriving a (l ++ [es]) i = arriving a l i := by
  unfold arriving
  rw [List.take_append_of_le_length h]

theorem arriving_full (a : K) (l : List (List (Edge K))) : arriving a l l.length = a * (l.map avgPrice).prod := by
  unfold arriving
  rw [List.take_length]

theorem prices_pos {l : List (List (Edge K))} (h : ∀ es ∈ l, Tradable es) : 0 < (l.map avgPrice).prod := by
  induction l with
  | nil => simp
  | cons a l ih =>
    rw [List.map_cons, List.prod_cons]
    exact mul_pos (h a (by simp)).price_pos (ih fun b hb => h b (List.mem_cons_of_mem _ hb))

/-- What holds after the steps `done`. -/
structure RunInv (done : List (List (Edge K))) (r : AG.Run K) : Prop where
  pos : 0 < r.mult * r.initial
  out : r.out = r.mult * r.initial * (done.map avgPrice).prod
  fits : Fits (r.mult * r.initial) done
  sat : Saturates (r.mult * r.initial) done

theorem runStep_first (g : AG K) {e : Edge K} {es : List (Edge K)} (h : Tradable (e :: es)) :
    ∃ r, g.runStep none (e :: es) = .ok r ∧ RunInv [e :: es] r ∧ r.tknIn = g.tknOf e.nodeIn ∧ r.tknOut = g.tknOf e.nodeOut := by
  unfold AG.runStep
  dsimp only
  rw [pushAll_full fun e he => (h.2 e he).1, Py.ok_bind]
  have hc := h.capacity_pos
  refine ⟨_, rfl, ⟨?_, ?_, ?_, ?_⟩, rfl, rfl⟩
  · simpa [capacity] using hc
  · dsimp only
    rw [one_mul, List.map_singleton, List.prod_singleton]
    unfold avgPrice
    unfold capacity at hc
    field_simp
  · intro i hi
    have : i = 0 := by simpa using hi
    subst this
    simp [arriving, capacity]
  · exact ⟨0, by simp, by simp [arriving, capacity]⟩

theorem runStep_next (g : AG K) {done : List (List (Edge K))} {r : AG.Run K} {e : Edge K} {es : List (Edge K)}
    (hd : ∀ s ∈ done, Tradable s) (hi : RunInv done r) (h : Tradable (e :: es)) :
    ∃ r', g.runStep (some r) (e :: es) = .ok r' ∧ RunInv (done ++ [e :: es]) r' ∧ r'.tknIn = r.tknIn ∧
      r'.tknOut = g.tknOf e.nodeOut := by
  have hc := h.capacity_pos
  have hpp := prices_pos hd
  have hout : 0 < r.out := by rw [hi.out]; exact mul_pos hi.pos hpp
  unfold AG.runStep
  dsimp only
  by_cases hcap : ((e :: es).map Edge.amountIn).sum < r.out
  · rw [if_pos hcap, UICurve.pyDiv_ok hout.ne', Py.ok_bind, pushAll_full fun e he => (h.2 e he).1, Py.ok_bind]
    unfold capacity at hc
    set c := ((e :: es).map Edge.amountIn).sum with hcdef
    have hq0 : 0 < c / r.out := div_pos hc hout
    have hq1 : c / r.out < 1 := (div_lt_one hout).2 hcap
    have hm : r.mult * (c / r.out) * r.initial = r.mult * r.initial * (c / r.out) := by ring
    have harr : r.mult * r.initial * (c / r.out) * (done.map avgPrice).prod = c := by
      rw [show r.mult * r.initial * (c / r.out) * (done.map avgPrice).prod
        = (r.mult * r.initial * (done.map avgPrice).prod) * (c / r.out) by ring, ← hi.out]
      field_simp
    refine ⟨_, rfl, ⟨?_, ?_, ?_, ?_⟩, rfl, rfl⟩
    · dsimp only; rw [hm]; exact mul_pos hi.pos hq0
    · dsimp only
      rw [hm, List.map_append, List.prod_append, List.map_singleton, List.prod_singleton, ← mul_assoc, harr]
      unfold avgPrice
      rw [← hcdef]
      field_simp
    · dsimp only
      rw [hm]
      intro i hil
      rcases Nat.lt_or_ge i done.length with hlt | hge
      · rw [arriving_append hlt.le, List.getElem_append_left hlt]
        refine le_trans ?_ (hi.fits i hlt)
        unfold arriving
        have hp : 0 < ((done.take i).map avgPrice).prod := prices_pos fun s hs => hd s (List.mem_of_mem_take hs)
        have := hi.pos
        have h1 : r.mult * r.initial * (c / r.out) ≤ r.mult * r.initial := by nlinarith
        exact mul_le_mul_of_nonneg_right h1 hp.le
      · have : i = done.length := by simp at hil; omega
        subst this
        rw [arriving_append le_rfl, arriving_full, harr]
        simp [capacity, hcdef]
    · dsimp only
      rw [hm]
      refine ⟨done.length, by simp, ?_⟩
      rw [arriving_append le_rfl, arriving_full, harr]
      simp [capacity, hcdef]
  · rw [if_neg hcap]
    unfold capacity at hc
    set c := ((e :: es).map Edge.amountIn).sum with hcdef
    have hle : r.out ≤ c := not_lt.1 hcap
    have hf0 : 0 ≤ r.out / c := (div_pos hout hc).le
    have hf1 : r.out / c ≤ 1 := (div_le_one hc).2 hle
    rw [UICurve.pyDiv_ok hc.ne', Py.ok_bind, pushAll_ok (fun e he => (h.2 e he).1) hf0 hf1, Py.ok_bind]
    refine ⟨_, rfl, ⟨hi.pos, ?_, ?_, ?_⟩, rfl, rfl⟩
    · dsimp only
      rw [sum_scaled, List.map_append, List.prod_append, List.map_singleton, List.prod_singleton, ← mul_assoc, ← hi.out]
      unfold avgPrice
      rw [← hcdef]
      ring
    · dsimp only
      intro i hil
      rcases Nat.lt_or_ge i done.length with hlt | hge
      · rw [arriving_append hlt.le, List.getElem_append_left hlt]
        exact hi.fits i hlt
      · have : i = done.length := by simp at hil; omega
        subst this
        rw [arriving_append le_rfl, arriving_full, ← hi.out]
        simpa [capacity, hcdef] using hle
    · obtain ⟨i, hlt, he⟩ := hi.sat
      refine ⟨i, by simp; omega, ?_⟩
      rw [arriving_append hlt.le, List.getElem_append_left hlt]
      exact he

/-- The edges of the graph from one node to another. -/
def edgesFrom (g : AG K) (a b : Nat) : List (Edge K) := g.edgeList.filter fun e => e.nodeIn = a ∧ e.nodeOut = b

theorem between_eq (g : AG K) (p : Nat × Nat) : g.between p = edgesFrom g p.1 p.2 := by
  unfold AG.between edgesFrom AG.filterEdges AG.edgeList
  induction g.edges with
  | nil => rfl
  | cons i is ih =>
    simp only [List.filter_cons, List.filterMap_cons]
    cases h : g.edgeObjs[i]? with
    | none => simpa using ih
    | some e =>
      by_cases hp : e.nodeIn = p.1 ∧ e.nodeOut = p.2
      · simp only [Option.all_some, hp.1, hp.2, beq_self_eq_true, Bool.and_self, if_true, List.filterMap_cons, h,
          and_self, decide_true, List.filter_cons]
        exact congrArg _ ih
      · have hb : ((e.nodeIn == p.1) && (e.nodeOut == p.2)) = false := by
          rw [Bool.and_eq_false_iff]
          rw [not_and_or] at hp
          rcases hp with h | h
          · exact Or.inl (by simpa using h)
          · exact Or.inr (by simpa using h)
        simp only [Option.all_some, hb, Bool.false_eq_true, if_false, List.filter_cons, decide_eq_true_eq, hp]
        exact ih

theorem runLoop_next (g : AG K) {done : List (List (Edge K))} {r : AG.Run K} (ps : List (Nat × Nat))
    (hd : ∀ s ∈ done, Tradable s) (hi : RunInv done r) (h : ∀ p ∈ ps, Tradable (edgesFrom g p.1 p.2)) :
    ∃ r', g.runLoop (some r) ps = .ok (some r') ∧ RunInv (done ++ ps.map fun p => edgesFrom g p.1 p.2) r' ∧
      r'.tknIn = r.tknIn ∧ r'.tknOut = (ps.getLast?).elim r.tknOut fun p => g.tknOf p.2 := by
  induction ps generalizing done r with
  | nil => exact ⟨r, rfl, by simpa using hi, rfl, rfl⟩
  | cons p ps ih =>
    have hp := h p (by simp)
    obtain ⟨e, es, hes⟩ := List.exists_cons_of_ne_nil hp.1
    have he : e ∈ edgesFrom g p.1 p.2 := by rw [hes]; simp
    have hno : e.nodeOut = p.2 := by
      have := (List.mem_filter.1 he).2
      simp at this
      exact this.2
    obtain ⟨r1, h1, hi1, ht1, ho1⟩ := runStep_next g hd hi (hes ▸ hp)
    obtain ⟨r2, h2, hi2, ht2, ho2⟩ := ih (done := done ++ [e :: es]) (r := r1) (by
      intro s hs
      rcases List.mem_append.1 hs with hs | hs
      · exact hd s hs
      · rw [List.mem_singleton.1 hs, ← hes]; exact hp) hi1 (fun q hq => h q (List.mem_cons_of_mem _ hq))
    refine ⟨r2, ?_, ?_, ht2.trans ht1, ?_⟩
    · rw [AG.runLoop, between_eq, hes, h1, Py.ok_bind, h2]
    · rw [List.append_assoc] at hi2
      simpa [hes] using hi2
    · rw [ho2, ho1, hno, List.getLast?_cons]
      cases ps.getLast? <;> rfl

theorem runLoop_ok (g : AG K) {p : Nat × Nat} {ps : List (Nat × Nat)}
    (h : ∀ q ∈ p :: ps, Tradable (edgesFrom g q.1 q.2)) :
    ∃ r, g.runLoop none (p :: ps) = .ok (some r) ∧ RunInv ((p :: ps).map fun p => edgesFrom g p.1 p.2) r ∧
      r.tknIn = g.tknOf p.1 ∧ r.tknOut = ((p :: ps).getLast?).elim none fun p => g.tknOf p.2 := by
  have hp := h p (by simp)
  obtain ⟨e, es, hes⟩ := List.exists_cons_of_ne_nil hp.1
  have he : e ∈ edgesFrom g p.1 p.2 := by rw [hes]; simp
  have hno : e.nodeIn = p.1 ∧ e.nodeOut = p.2 := by
    have := (List.mem_filter.1 he).2
    simpa using this
  obtain ⟨r1, h1, hi1, ht1, ho1⟩ := runStep_first g (hes ▸ hp)
  obtain ⟨r2, h2, hi2, ht2, ho2⟩ := runLoop_next g ps (done := [e :: es]) (r := r1) (by
      intro s hs
      rw [List.mem_singleton.1 hs, ← hes]; exact hp) hi1 (fun q hq => h q (List.mem_cons_of_mem _ hq))
  refine ⟨r2, ?_, ?_, ?_, ?_⟩
  · rw [AG.runLoop, between_eq, hes, h1, Py.ok_bind, h2]
  · simpa [hes] using hi2
  · rw [ht2, ht1, hno.1]
  · rw [ho2, ho1, hno.2, List.getLast?_cons]
    cases ps.getLast? <;> rfl

/-- The closed walk through the nodes of a list, from one to the next and from the last to the first. -/
def closedWalk (l : List Nat) : List (Nat × Nat) := l.zip (l.rotate 1)

theorem closedWalk_ends (a : Nat) (l : List Nat) :
    ∃ b ps, closedWalk (a :: l) = (a, b) :: ps ∧ (closedWalk (a :: l)).getLast? = some ((a :: l).getLast (by simp), a) := by
  have h : (a :: l).rotate 1 = l ++ [a] := by simp
  unfold closedWalk
  rw [h]
  rcases List.eq_nil_or_concat l with rfl | ⟨i, z, rfl⟩
  · exact ⟨a, [], rfl, rfl⟩
  · obtain ⟨b, m, hbm⟩ : ∃ b m, i.concat z ++ [a] = b :: m := by
      cases i with
      | nil => exact ⟨_, _, rfl⟩
      | cons x i => exact ⟨_, _, rfl⟩
    refine ⟨b, (i.concat z).zip m, by rw [hbm]; rfl, ?_⟩
    have : (a :: i.concat z).zip (i.concat z ++ [a]) = (a :: i).zip (i ++ [z]) ++ [(z, a)] := by
      rw [show a :: i.concat z = (a :: i) ++ [z] by simp, show i.concat z ++ [a] = (i ++ [z]) ++ [a] by simp,
        List.zip_append (by simp)]
      rfl
    rw [this]
    simp

/-- What `run_arbitrage_cycle` should report for the closed walk through `l`. -/
structure Reports (g : AG K) (l : List Nat) (res : AG.ArbResult K) : Prop where
  /-- The profit is what comes out minus what goes in. -/
  profit : res.profit = res.amountOut - res.amountIn
  /-- Something is put in. -/
  pos : 0 < res.amountIn
  /-- The output over the input is the product of the prices of the steps. -/
  out : res.amountOut = res.amountIn * ((closedWalk l).map fun p => avgPrice (edgesFrom g p.1 p.2)).prod
  /-- No step gets more than its capacity. -/
  fits : Fits res.amountIn ((closedWalk l).map fun p => edgesFrom g p.1 p.2)
  /-- No larger amount could be put in. -/
  max : ∀ a, Fits a ((closedWalk l).map fun p => edgesFrom g p.1 p.2) → a ≤ res.amountIn
  /-- The reported token is the one of the first node. -/
  token : ∀ n, l.head? = some n → res.token = g.tknOf n

theorem Saturates.max {a b : K} {steps : List (List (Edge K))} (hs : ∀ s ∈ steps, Tradable s) (h : Saturates a steps)
    (hb : Fits b steps) : b ≤ a := by
  obtain ⟨i, hi, he⟩ := h
  have := hb i hi
  rw [← he] at this
  unfold arriving at this
  exact le_of_mul_le_mul_right this (prices_pos fun s hs' => hs s (List.mem_of_mem_take hs'))

theorem run_from (g : AG K) {l : List Nat} (hne : l ≠ [])
    (h : ∀ p ∈ closedWalk l, Tradable (edgesFrom g p.1 p.2)) {cycle : List Nat} {token : Option Str} {any : Bool}
    (hs : g.runStart cycle token any = .ok (closedWalk l)) :
    ∃ res, g.runCycle cycle token any = .ok res ∧ Reports g l res := by
  obtain ⟨a, m, rfl⟩ := List.exists_cons_of_ne_nil hne
  obtain ⟨b, ps, hw, hl⟩ := closedWalk_ends a m
  obtain ⟨r, hr, hi, hti, hto⟩ := runLoop_ok g (p := (a, b)) (ps := ps) (by rw [← hw]; exact h)
  rw [← hw] at hr hi hto
  rw [hl] at hto
  unfold AG.runCycle
  rw [hs, Py.ok_bind, hr, Py.ok_bind]
  dsimp only
  rw [if_pos (by rw [hti, hto]; rfl)]
  have htr : ∀ s ∈ (closedWalk (a :: m)).map (fun p => edgesFrom g p.1 p.2), Tradable s := by
    intro s hs
    obtain ⟨p, hp, rfl⟩ := List.mem_map.1 hs
    exact h p hp
  refine ⟨_, rfl, ⟨rfl, hi.pos, ?_, hi.fits, fun x hx => hi.sat.max htr hx, ?_⟩⟩
  · have := hi.out
    rw [List.map_map] at this
    exact this
  · intro n hn
    have : a = n := by simpa using hn
    subst this
    exact hto

theorem pairs_walk {data : List Nat} (h : data ≠ []) (start : Int) :
    Cycle.pairs data start = .ok (closedWalk (data.rotate (start % (data.length : Int)).toNat)) := by
  rw [Cycle.C48_pairs h]
  congr 1
  unfold closedWalk
  rw [List.rotate_rotate, Nat.add_comm, ← List.rotate_rotate]
  exact List.zipWith_rotate_distrib _ _ _ _ (by simp)

theorem closedWalk_rotate (l : List Nat) (k : Nat) : closedWalk (l.rotate k) = (closedWalk l).rotate k := by
  unfold closedWalk
  rw [List.rotate_rotate, Nat.add_comm, ← List.rotate_rotate]
  exact (List.zipWith_rotate_distrib _ _ _ _ (by simp)).symm

/-- C47: running a cycle along tradable edges succeeds, starts at the first node of the cycle, puts in the largest amount that
respects the capacity of every step, and reports the output and profit that the prices imply. -/
theorem C47_run (g : AG K) {cycle : List Nat} (hne : cycle ≠ [])
    (h : ∀ p ∈ closedWalk cycle, Tradable (edgesFrom g p.1 p.2)) (any : Bool) :
    ∃ res, g.runCycle cycle none any = .ok res ∧ Reports g cycle res := by
  refine run_from g hne h ?_
  unfold AG.runStart
  rw [pairs_walk hne]
  simp

/-- C47: with a token of the cycle, the run is that of the cycle entered at its node. -/
theorem C47_token (g : AG K) {cycle : List Nat} {t : Str} {n : Nat} (hn : dictGet g.byTkn t = some n) (hc : n ∈ cycle)
    (h : ∀ p ∈ closedWalk cycle, Tradable (edgesFrom g p.1 p.2)) (any : Bool) :
    ∃ k res, (cycle.rotate k).head? = some n ∧ g.runCycle cycle (some t) any = .ok res ∧ Reports g (cycle.rotate k) res := by
  have hne : cycle ≠ [] := List.ne_nil_of_mem hc
  obtain ⟨i, rest, hi, hit, -⟩ := Cycle.C48_start hc
  obtain ⟨x', rest', hit', -, hr'⟩ := Cycle.C48_items hne i
  rw [hit] at hit'
  have he := Except.ok.inj hit'
  have hxr : n :: rest = cycle.rotate (i % (cycle.length : Int)).toNat := by
    rw [← hr']
    exact List.append_inj_left' he (by simp)
  refine ⟨(i % (cycle.length : Int)).toNat, ?_⟩
  have hlk : (g.nodeByTkn t).1 = .ok n := by
    unfold AG.nodeByTkn
    rw [hn]
  obtain ⟨res, h1, h2⟩ := run_from g (l := cycle.rotate (i % (cycle.length : Int)).toNat) (by simpa using hne)
    (by rw [closedWalk_rotate]; intro p hp; exact h p (List.mem_rotate.1 hp)) (cycle := cycle) (token := some t) (any := any) (by
      unfold AG.runStart
      dsimp only
      rw [hlk, Py.ok_bind, hi, Py.ok_bind, pairs_walk hne])
  exact ⟨res, by rw [← hxr]; rfl, h1, h2⟩

/-- C47: a token that is not in the cycle is ignored or rejected, as asked for. -/
theorem C47_other_token (g : AG K) {cycle : List Nat} {t : Str} (h : ∀ n, dictGet g.byTkn t = some n → n ∉ cycle) :
    g.runCycle cycle (some t) true = g.runCycle cycle none true ∧ g.runCycle cycle (some t) false = .error .value := by
  have key : ∃ e, (do let n ← (g.nodeByTkn t).1; let i ← Cycle.startOf cycle n; Cycle.pairs cycle i) = .error e := by
    unfold AG.nodeByTkn
    cases hn : dictGet g.byTkn t with
    | none => exact ⟨.key, rfl⟩
    | some n =>
      refine ⟨.value, ?_⟩
      dsimp only
      rw [Py.ok_bind, Cycle.C48_start_missing (h n hn), Py.error_bind]
  obtain ⟨e, he⟩ := key
  constructor
  · unfold AG.runCycle AG.runStart
    dsimp only
    rw [he]
    rfl
  · unfold AG.runCycle AG.runStart
    dsimp only
    rw [he]
    rfl

theorem runLoop_missing (g : AG K) (r : Option (AG.Run K)) {ps : List (Nat × Nat)} (h : ∃ p ∈ ps, edgesFrom g p.1 p.2 = []) :
    ∀ x, g.runLoop r ps ≠ .ok x := by
  induction ps generalizing r with
  | nil => simp at h
  | cons p ps ih =>
    intro x hx
    rw [AG.runLoop, between_eq, Py.bind_eq_ok] at hx
    obtain ⟨r1, h1, h2⟩ := hx
    obtain ⟨q, hq, he⟩ := h
    rcases List.mem_cons.1 hq with rfl | hq
    · rw [he] at h1
      cases h1
    · exact ih (some r1) ⟨q, hq, he⟩ x h2

/-- C47: a cycle with a step along which there is no edge cannot be run. -/
theorem C47_broken (g : AG K) {cycle : List Nat} (h : ∃ p ∈ closedWalk cycle, edgesFrom g p.1 p.2 = []) (token : Option Str)
    (any : Bool) : ∀ res, g.runCycle cycle token any ≠ .ok res := by
  intro res hres
  have hne : cycle ≠ [] := by
    rintro rfl
    obtain ⟨p, hp, -⟩ := h
    simp [closedWalk] at hp
  unfold AG.runCycle at hres
  rw [Py.bind_eq_ok] at hres
  obtain ⟨ps, hps, hres⟩ := hres
  rw [Py.bind_eq_ok] at hres
  obtain ⟨r, hr, -⟩ := hres
  have hw : ∃ k, ps = (closedWalk cycle).rotate k := by
    have hp : ∀ s qs, Cycle.pairs cycle s = .ok qs → ∃ k, qs = (closedWalk cycle).rotate k := by
      intro s qs hq
      rw [pairs_walk hne, closedWalk_rotate] at hq
      exact ⟨_, (Except.ok.inj hq).symm⟩
    unfold AG.runStart at hps
    cases token with
    | none => exact hp _ _ hps
    | some t =>
      dsimp only at hps
      split at hps
      · rename_i qs hq
        rw [Py.bind_eq_ok] at hq
        obtain ⟨n, -, hq⟩ := hq
        rw [Py.bind_eq_ok] at hq
        obtain ⟨i, -, hq⟩ := hq
        rw [← Except.ok.inj hps]
        exact hp _ _ hq
      · split at hps
        · exact hp _ _ hps
        · cases hps
  obtain ⟨k, rfl⟩ := hw
  obtain ⟨p, hp, he⟩ := h
  exact runLoop_missing g none ⟨p, List.mem_rotate.2 hp, he⟩ r hr

end

/-! ## Instances and counterexamples -/

/-- Three tokens and a profitable cycle; the second step limits the amount. -/
def exGraph : AG ℚ :=
  let g := (AG.empty.addEdge "A".toList 10 "B".toList 20).2
  let g := (g.addEdge "B".toList 5 "C".toList 9).2
  let g := (g.addEdge "B".toList 10 "C".toList 21).2
  (g.addEdge "C".toList 100 "A".toList 50).2

theorem exGraph_walk : ∀ p ∈ closedWalk [0, 1, 2], Tradable (edgesFrom exGraph p.1 p.2) := by
  unfold Tradable
  decide +kernel

example : exGraph.runCycle [0, 1, 2] = .ok ⟨some "A".toList, 15 / 2, 15 / 2, 15⟩ := by decide +kernel
example : exGraph.runCycle [0, 1, 2] (some "C".toList) = .ok ⟨some "C".toList, 15, 15, 30⟩ := by decide +kernel
example : exGraph.runCycle [0, 1, 2] (some "D".toList) false = .error .value := by decide +kernel
example : exGraph.runCycle [0, 2, 1] = .error .index := by decide +kernel

/-- C47 fails on graphs of connection edges, whose amounts are negative: the profit of a cycle that doubles what is put in comes out
negative. -/
theorem C47_connection_violated : ∃ (g : AG ℚ) (res : AG.ArbResult ℚ), g.runCycle [0, 1] = .ok res ∧
    ((closedWalk [0, 1]).map fun p => avgPrice (edgesFrom g p.1 p.2)).prod = 2 ∧ res.profit < 0 :=
  ⟨(((AG.empty : AG ℚ).addConnection { tknIn := "A".toList, tknOut := "B".toList, price := some 2, symmetric := false }).2.addConnection
    { tknIn := "B".toList, tknOut := "A".toList, price := some 1, symmetric := false }).2, ⟨some "A".toList, -1, -1, -2⟩,
    by decide +kernel, by decide +kernel, by decide +kernel⟩

/-- C47 fails with respect to what is left of the capacities after recorded transports: the run looks at the original ones only. -/
theorem C47_remaining_violated : ∃ (g : AG ℚ) (res : AG.ArbResult ℚ) (i : Nat), g.runCycle [0, 1] = .ok res ∧
    0 < res.amountIn ∧ g.filterEdges (some 0) (some 1) = [i] ∧ g.remainingOf i = .ok 0 :=
  ⟨((((AG.empty : AG ℚ).addEdge "A".toList 10 "B".toList 20).2.addEdge "B".toList 20 "A".toList 11).2.transport 10 "A".toList "B".toList
    true false).2, ⟨some "A".toList, 1, 10, 11⟩, 0, by decide +kernel, by decide +kernel, by decide +kernel, by decide +kernel⟩

end Arb

end Carbon
