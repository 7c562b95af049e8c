import Verif.Bench.Match
import Verif.Prop.Match

namespace Carbon.Bench

open Carbon

variable {trade : Int → EncOrder → Rate} {equalize : EncOrder → Int → Int} {amount : Int}

/-- A list of orders with, for each, a rate that the order itself quoted. -/
def Quoted (trade : Int → EncOrder → Rate) (l : List (EncOrder × Rate)) : Prop :=
  ∀ p ∈ l, ∃ x, p.2 = trade x p.1

theorem ratesAt_length (orders : List EncOrder) (limit : Int) :
    (ratesAt trade equalize orders limit).length = orders.length := by
  simp [ratesAt]

theorem ratesAt_quoted (orders : List EncOrder) (limit : Int) :
    Quoted trade (orders.zip (ratesAt trade equalize orders limit)) := by
  intro p hp
  unfold ratesAt at hp
  rw [List.zip_map_right, List.mem_map] at hp
  obtain ⟨q, hq, rfl⟩ := hp
  have hd : q.1 = q.2 := by
    have : ∀ l : List EncOrder, ∀ q ∈ l.zip l, q.1 = q.2 := by
      intro l
      induction l with
      | nil => simp
      | cons a t ih =>
        intro q hq
        simp only [List.zip_cons_cons, List.mem_cons] at hq
        rcases hq with rfl | h
        · rfl
        · exact ih q h
    exact this _ _ hq
  refine ⟨equalize q.2 limit, ?_⟩
  simp only [Prod.map_snd, Prod.map_fst, id]
  rw [hd]

/-- What the scan returns. -/
theorem bestScan_spec (done todo : List EncOrder) (hne : todo ≠ []) :
    ∃ pre post limit, bestScan amount trade equalize done todo =
        some (done ++ pre, limit, ratesAt trade equalize (done ++ pre) limit,
          totalInput (ratesAt trade equalize (done ++ pre) limit) - amount) ∧
      todo = pre ++ post ∧ post ≠ [] := by
  induction todo generalizing done with
  | nil => exact absurd rfl hne
  | cons o rest ih =>
    unfold bestScan
    simp only
    split
    · exact ⟨[], o :: rest, getLimit o, by simp, by simp, by simp⟩
    · rcases rest with _ | ⟨o', rest'⟩
      · refine ⟨[], [o], getLimit o, ?_, by simp, by simp⟩
        simp [bestScan]
      · obtain ⟨pre, post, limit, h1, h2, h3⟩ := ih (done ++ [o]) (by simp)
        refine ⟨o :: pre, post, limit, ?_, by simp [h2], h3⟩
        rw [h1]
        simp

/-- What the bisection returns, given consistent arguments. -/
theorem bestBisect_spec (orders : List EncOrder) (fuel : Nat) (lo hi : Int) (rates : List Rate) (delta : Int)
    (h1 : rates.length = orders.length) (h2 : Quoted trade (orders.zip rates))
    (h3 : delta = totalInput rates - amount) :
    ((bestBisect amount trade equalize orders fuel lo hi rates delta).1.length = orders.length) ∧
    Quoted trade (orders.zip (bestBisect amount trade equalize orders fuel lo hi rates delta).1) ∧
    (bestBisect amount trade equalize orders fuel lo hi rates delta).2 =
      totalInput (bestBisect amount trade equalize orders fuel lo hi rates delta).1 - amount := by
  induction fuel generalizing lo hi rates delta with
  | zero => exact ⟨h1, h2, h3⟩
  | succ n ih =>
    unfold bestBisect
    split
    · dsimp only
      split
      · exact ih _ _ _ _ (ratesAt_length _ _) (ratesAt_quoted _ _) rfl
      · split
        · exact ih _ _ _ _ (ratesAt_length _ _) (ratesAt_quoted _ _) rfl
        · exact ⟨ratesAt_length _ _, ratesAt_quoted _ _, rfl⟩
    · exact ⟨h1, h2, h3⟩

/-- The bisection ends with adjacent bounds or an exact hit: the fuel `hi - lo` is never exhausted early.
`exhausted` is the interval that is left. -/
def bisectLeft (amount : Int) (trade : Int → EncOrder → Rate) (equalize : EncOrder → Int → Int)
    (orders : List EncOrder) : Nat → Int → Int → Prop
  | 0, lo, hi => ¬ (lo + 1 < hi)
  | fuel + 1, lo, hi =>
    if lo + 1 < hi then
      let limit := (lo + hi).fdiv 2
      let delta := totalInput (ratesAt trade equalize orders limit) - amount
      if delta > 0 then bisectLeft amount trade equalize orders fuel limit hi
      else if delta < 0 then bisectLeft amount trade equalize orders fuel lo limit
      else True
    else True

theorem bisect_fuel_suffices (orders : List EncOrder) (fuel : Nat) (lo hi : Int) (h : (hi - lo).toNat ≤ fuel) :
    bisectLeft amount trade equalize orders fuel lo hi := by
  induction fuel generalizing lo hi with
  | zero => unfold bisectLeft; omega
  | succ n ih =>
    unfold bisectLeft
    split
    · rename_i hlt
      dsimp only
      have h2 : (lo + hi).fdiv 2 = (lo + hi) / 2 := Int.fdiv_eq_ediv_of_nonneg _ (by norm_num)
      rw [h2]
      split
      · apply ih; omega
      · split
        · apply ih; omega
        · trivial
    · trivial

theorem bestReduce_fst (l : List (EncOrder × Rate)) (delta : Int) :
    (bestReduce trade l delta).map Prod.fst = l.map Prod.fst := by
  induction l generalizing delta with
  | nil => rfl
  | cons p t ih =>
    obtain ⟨o, r⟩ := p
    unfold bestReduce
    dsimp only
    split
    · rfl
    · simp [ih]

theorem bestIncrease_fst (l : List (EncOrder × Rate)) (delta : Int) :
    (bestIncrease trade l delta).map Prod.fst = l.map Prod.fst := by
  induction l generalizing delta with
  | nil => rfl
  | cons p t ih =>
    obtain ⟨o, r⟩ := p
    unfold bestIncrease
    dsimp only
    split
    · rfl
    · simp [ih]

theorem bestReduce_quoted (l : List (EncOrder × Rate)) (delta : Int) (h : Quoted trade l) :
    Quoted trade (bestReduce trade l delta) := by
  induction l generalizing delta with
  | nil => intro p hp; simp [bestReduce] at hp
  | cons p t ih =>
    obtain ⟨o, r⟩ := p
    have ht : Quoted trade t := fun q hq => h q (List.mem_cons_of_mem _ hq)
    unfold bestReduce
    dsimp only
    split
    · intro q hq
      rcases List.mem_cons.1 hq with rfl | hq
      · exact ⟨_, rfl⟩
      · exact ht q hq
    · intro q hq
      rcases List.mem_cons.1 hq with rfl | hq
      · exact ⟨_, rfl⟩
      · exact ih _ ht q hq

theorem bestIncrease_quoted (l : List (EncOrder × Rate)) (delta : Int) (h : Quoted trade l) :
    Quoted trade (bestIncrease trade l delta) := by
  induction l generalizing delta with
  | nil => intro p hp; simp [bestIncrease] at hp
  | cons p t ih =>
    obtain ⟨o, r⟩ := p
    have ht : Quoted trade t := fun q hq => h q (List.mem_cons_of_mem _ hq)
    unfold bestIncrease
    dsimp only
    split
    · exact h
    · intro q hq
      rcases List.mem_cons.1 hq with rfl | hq
      · exact ⟨_, rfl⟩
      · exact ih _ ht q hq

/-- Sum of the inputs of a list of (order, rate). -/
def tot (l : List (EncOrder × Rate)) : Int := (l.map fun p => p.2.input).sum

theorem bestReduce_tot (l : List (EncOrder × Rate)) (delta : Int) (hne : l ≠ [])
    (hcap : ∀ p ∈ l, ∀ x, (trade x p.1).input ≤ x) :
    tot (bestReduce trade l delta) ≤ tot l - delta := by
  cases l with
  | nil => exact absurd rfl hne
  | cons p t =>
    obtain ⟨o, r⟩ := p
    have := hcap (o, r) (List.mem_cons_self) (r.input - delta)
    unfold bestReduce
    dsimp only
    rw [if_pos (by dsimp only at this; omega)]
    simp only [tot, List.map_cons, List.sum_cons] at *
    omega

theorem bestIncrease_tot (l : List (EncOrder × Rate)) (delta : Int) (hd : delta ≤ 0)
    (hcap : ∀ p ∈ l, ∀ x, (trade x p.1).input ≤ x) :
    tot (bestIncrease trade l delta) ≤ tot l - delta := by
  induction l generalizing delta with
  | nil => simp [bestIncrease, tot]; omega
  | cons p t ih =>
    obtain ⟨o, r⟩ := p
    have h1 := hcap (o, r) (List.mem_cons_self) (r.input - delta)
    dsimp only at h1
    unfold bestIncrease
    dsimp only
    rw [if_neg (by omega)]
    have := ih (delta + ((trade (r.input - delta) o).input - r.input)) (by omega)
      (fun p hp => hcap p (List.mem_cons_of_mem _ hp))
    simp only [tot, List.map_cons, List.sum_cons] at *
    omega

theorem zip_map_fst_eq {α β : Type} (a : List α) (b : List β) (h : b.length = a.length) :
    (a.zip b).map Prod.fst = a := by
  rw [List.map_fst_zip]; omega

theorem zip_map_snd_eq {α β : Type} (a : List α) (b : List β) (h : b.length = a.length) :
    (a.zip b).map Prod.snd = b := by
  rw [List.map_snd_zip]; omega

theorem zip_fst_snd {α β : Type} (l : List (α × β)) : (l.map Prod.fst).zip (l.map Prod.snd) = l := by
  induction l with
  | nil => rfl
  | cons p t ih => simp [ih]

/-- Everything about the rates of `matchBest` before filtering. -/
theorem matchBestRates_spec (sorted : List EncOrder) (hne : sorted ≠ []) :
    ∃ rates, matchBestRates amount sorted trade equalize = .ok rates ∧
      ∃ done post, sorted = done ++ post ∧ rates.length = done.length ∧ Quoted trade (done.zip rates) ∧
      ((∀ o ∈ sorted, ∀ x, (trade x o).input ≤ x) → totalInput rates ≤ amount) := by
  obtain ⟨first, rest, rfl⟩ := List.exists_cons_of_ne_nil hne
  obtain ⟨pre, post, limit, h1, h2, h3⟩ :=
    bestScan_spec (amount := amount) (trade := trade) (equalize := equalize) [first] (rest ++ [sentinel]) (by simp)
  unfold matchBestRates
  simp only [List.cons_append]
  rw [h1]
  dsimp only
  -- `first :: pre` is a prefix of the sorted orders
  have hpre : ∃ post', first :: rest = ([first] ++ pre) ++ post' := by
    have : rest ++ [sentinel] = pre ++ post := h2
    refine ⟨post.dropLast, ?_⟩
    have h4 : (rest ++ [sentinel]).dropLast = pre ++ post.dropLast := by
      rw [this, List.dropLast_append_of_ne_nil h3]
    rw [List.dropLast_concat] at h4
    simp [h4]
  obtain ⟨post', hpost⟩ := hpre
  generalize hdone : [first] ++ pre = done at *
  have hdne : done ≠ [] := by rw [← hdone]; simp
  have hmem : ∀ o ∈ done, o ∈ first :: rest := by
    intro o ho; rw [hpost]; exact List.mem_append_left _ ho
  generalize hhi : lastLimit done = hi
  have key : ∀ (pr : List Rate × Int), pr.1.length = done.length → Quoted trade (done.zip pr.1) →
      pr.2 = totalInput pr.1 - amount →
      ∃ rates, (Except.ok (if pr.2 > 0 then ((bestReduce trade (done.zip pr.1).reverse pr.2).reverse).map Prod.snd
        else if pr.2 < 0 then (bestIncrease trade (done.zip pr.1) pr.2).map Prod.snd else pr.1) : Py (List Rate)) =
          .ok rates ∧
      ∃ done post, first :: rest = done ++ post ∧ rates.length = done.length ∧ Quoted trade (done.zip rates) ∧
      ((∀ o ∈ first :: rest, ∀ x, (trade x o).input ≤ x) → totalInput rates ≤ amount) := by
    rintro ⟨rates, delta⟩ hl hq hd
    dsimp only at *
    refine ⟨_, rfl, done, post', hpost, ?_⟩
    have hzne : done.zip rates ≠ [] := by
      intro h
      have := congrArg List.length h
      simp only [List.length_zip, List.length_nil, hl, Nat.min_self] at this
      exact hdne (List.length_eq_zero_iff.1 this)
    have htot : totalInput rates = tot (done.zip rates) := by
      unfold totalInput tot
      have : (fun p : EncOrder × Rate => p.2.input) = Rate.input ∘ Prod.snd := rfl
      rw [this, ← List.map_map, zip_map_snd_eq _ _ hl]
    have hcap' : (∀ o ∈ first :: rest, ∀ x, (trade x o).input ≤ x) →
        ∀ p ∈ done.zip rates, ∀ x, (trade x p.1).input ≤ x :=
      fun h p hp => h _ (hmem _ (List.of_mem_zip hp).1)
    split
    · -- surplus
      rename_i hpos
      set l := (bestReduce trade (done.zip rates).reverse delta).reverse with hl'
      have hfst : l.map Prod.fst = done := by
        rw [hl', List.map_reverse, bestReduce_fst, List.map_reverse, List.reverse_reverse, zip_map_fst_eq _ _ hl]
      have hqd : Quoted trade l := by
        intro p hp
        rw [hl', List.mem_reverse] at hp
        exact bestReduce_quoted _ _ (fun q hq' => hq q (List.mem_reverse.1 hq')) p hp
      refine ⟨?_, ?_, ?_⟩
      · rw [List.length_map, ← hfst, List.length_map]
      · have : done.zip (l.map Prod.snd) = l := by rw [← hfst, zip_fst_snd]
        rw [this]; exact hqd
      · intro hcap
        have h5 := bestReduce_tot (trade := trade) (done.zip rates).reverse delta (by simpa using hzne)
          (fun p hp => hcap' hcap p (List.mem_reverse.1 hp))
        have h6 : tot (done.zip rates).reverse = tot (done.zip rates) := by
          simp [tot, List.map_reverse, List.sum_reverse]
        have h7 : totalInput (l.map Prod.snd) = tot (bestReduce trade (done.zip rates).reverse delta) := by
          unfold totalInput tot
          rw [List.map_map, hl', List.map_reverse, List.sum_reverse]; rfl
        omega
    · split
      · rename_i hneg
        have hfst := bestIncrease_fst (trade := trade) (done.zip rates) delta
        rw [zip_map_fst_eq _ _ hl] at hfst
        refine ⟨?_, ?_, ?_⟩
        · rw [List.length_map]
          have := congrArg List.length hfst
          rwa [List.length_map] at this
        · have hqd := bestIncrease_quoted _ delta hq
          generalize bestIncrease trade (done.zip rates) delta = l at *
          have : done.zip (l.map Prod.snd) = l := by rw [← hfst, zip_fst_snd]
          rw [this]; exact hqd
        · intro hcap
          have h5 := bestIncrease_tot (trade := trade) (done.zip rates) delta (by omega) (hcap' hcap)
          have h7 : totalInput ((bestIncrease trade (done.zip rates) delta).map Prod.snd) =
              tot (bestIncrease trade (done.zip rates) delta) := by
            unfold totalInput tot
            rw [List.map_map]; rfl
          omega
      · exact ⟨hl, hq, fun _ => by omega⟩
  by_cases hd : totalInput (ratesAt trade equalize done limit) - amount > 0
  · rw [if_pos hd]
    obtain ⟨s1, s2, s3⟩ := bestBisect_spec (amount := amount) (trade := trade) (equalize := equalize) done
      (hi - limit).toNat limit hi
      (ratesAt trade equalize done limit) _ (ratesAt_length _ _) (ratesAt_quoted _ _) rfl
    exact key (bestBisect amount trade equalize done (hi - limit).toNat limit hi
      (ratesAt trade equalize done limit) (totalInput (ratesAt trade equalize done limit) - amount)) s1 s2 s3
  · rw [if_neg hd]
    exact key _ (ratesAt_length _ _) (ratesAt_quoted _ _) rfl

end Carbon.Bench
