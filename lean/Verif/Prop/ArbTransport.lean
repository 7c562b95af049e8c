import Verif.Prop.ArbGraph

/-!
# C46: transporting amounts through a graph
-/

set_option linter.unusedSectionVars false

namespace Carbon

open CarbonPair (pyDiv)

namespace Arb

section
variable {K : Type} [Field K] [LinearOrder K] [IsStrictOrderedRing K]

/-- The balance of a node. -/
def amountOf (g : AG K) (n : Nat) : Option K := (g.nodeObjs[n]?).map Node.amount

/-- The price, output per input, of an edge. -/
def priceOf (g : AG K) (i : Nat) : K := (g.edgeObjs[i]?).elim 0 fun e => e.amountOut / e.amountIn

/-- The edge goes from one node to the other. -/
def Connects (g : AG K) (nin nout i : Nat) : Prop := ∃ e, g.edgeObjs[i]? = some e ∧ e.nodeIn = nin ∧ e.nodeOut = nout

theorem amountOf_modify (l : List (Node K)) (m n : Nat) (f : K → K) :
    (((l.modify m fun v => { v with amount := f v.amount })[n]?).map Node.amount) =
      ((l[n]?).map Node.amount).map fun x => if m = n then f x else x := by
  rw [List.getElem?_modify]
  cases l[n]? with
  | none => rfl
  | some v =>
    simp only [Option.map_eq_map, Option.map_some, Option.some.injEq]
    split <;> rfl

theorem pyDiv_eq_ok' {a b c : K} (h : pyDiv a b = .ok c) : b ≠ 0 ∧ c = a / b := by
  by_cases hb : b = 0
  · subst hb
    simp [pyDiv] at h
  · rw [UICurve.pyDiv_ok hb] at h
    exact ⟨hb, (Except.ok.inj h).symm⟩

/-- The effect of a recorded transport through one edge. -/
theorem edgeTransport_ok {g g' : AG K} {i : Nat} {a o : K} {raise : Bool}
    (h : g.edgeTransport i (some a) true raise = (.ok o, g')) :
    ∃ e r, g.edgeObjs[i]? = some e ∧ e.isAmount = true ∧ e.remaining = some r ∧ e.amountIn ≠ 0 ∧
      a ≤ e.amountIn + eps ∧ -eps ≤ a ∧
      o = a * (e.amountOut / e.amountIn) ∧ (raise = true → -eps ≤ r - a) ∧
      (g'.edgeObjs = g.edgeObjs.modify i fun e => { e with remaining := some (r - a) }) ∧
      (∀ n, amountOf g' n = (amountOf g n).map fun x =>
        x + (if n = e.nodeOut then o else 0) - (if n = e.nodeIn then a else 0)) ∧
      (raise = true → ∀ x, amountOf g' e.nodeIn = some x → -eps ≤ x) := by
  unfold AG.edgeTransport at h
  cases he : g.edgeObjs[i]? with
  | none => rw [he] at h; cases h
  | some e =>
    rw [he] at h
    dsimp only [Option.getD_some] at h
    split at h
    · cases h
    · rename_i ha
      have hamt : e.isAmount = true := by
        by_contra hc
        exact ha ⟨rfl, by simpa using hc⟩
      cases ho : e.out a with
      | error err => rw [ho] at h; cases h
      | ok o' =>
        rw [ho] at h
        dsimp only at h
        rw [if_neg (by simp)] at h
        cases hr : e.remaining with
        | none => rw [hr] at h; cases h
        | some r =>
          rw [hr] at h
          dsimp only at h
          split at h
          · cases h
          · rename_i h1
            split at h
            · cases h
            · rename_i h2
              have hoo : o' = o := Except.ok.inj (congrArg Prod.fst h)
              subst hoo
              have hg := (congrArg Prod.snd h).symm
              dsimp only at hg
              unfold Edge.out at ho
              split at ho
              · cases ho
              · rename_i hc1
                split at ho
                · cases ho
                · rename_i hc2
                  obtain ⟨hz, hq⟩ := pyDiv_eq_ok' ho
                  refine ⟨e, r, rfl, hamt, hr, hz, ?_, ?_, ?_, ?_, ?_, ?_, ?_⟩
                  · by_contra hc
                    exact hc1 ⟨hamt, hc⟩
                  · by_contra hc
                    exact hc2 ⟨hamt, hc⟩
                  · rw [hq, mul_div_assoc]
                  · intro hrz
                    by_contra hc
                    exact h1 ⟨not_le.1 hc, hrz⟩
                  · rw [hg]
                  · intro n
                    rw [hg]
                    unfold amountOf
                    dsimp only
                    rw [amountOf_modify _ _ _ (fun x => x - a), amountOf_modify _ _ _ (fun x => x + o')]
                    rw [Option.map_map]
                    congr 1
                    funext x
                    simp only [Function.comp, eq_comm (a := n)]
                    split <;> split <;> ring
                  · intro hrz x hx
                    by_contra hc
                    apply h2
                    refine ⟨?_, hrz⟩
                    rw [hg] at hx
                    unfold amountOf at hx
                    dsimp only at hx
                    rw [hx]
                    simpa using not_le.1 hc

theorem SameShape.price {g g' : AG K} (h : SameShape g g') (i : Nat) : priceOf g' i = priceOf g i := by
  unfold priceOf
  have := h.edge i
  cases h1 : g'.edgeObjs[i]? with
  | none =>
    rw [h1] at this
    cases h2 : g.edgeObjs[i]? with
    | none => rfl
    | some e => rw [h2] at this; cases this
  | some e =>
    rw [h1] at this
    cases h2 : g.edgeObjs[i]? with
    | none => rw [h2] at this; cases this
    | some e' =>
      rw [h2] at this
      have hs := Option.some.inj this
      have k1 : e.amountIn = e'.amountIn := by show e.shape.amountIn = e'.shape.amountIn; rw [hs]
      have k2 : e.amountOut = e'.amountOut := by show e.shape.amountOut = e'.shape.amountOut; rw [hs]
      simp only [Option.elim_some, k1, k2]

theorem SameShape.connects {g g' : AG K} (h : SameShape g g') {a b i : Nat} (hc : Connects g a b i) : Connects g' a b i := by
  obtain ⟨e, he, h1, h2⟩ := hc
  obtain ⟨e', he', hs⟩ := h.symm.edge_some he
  have k1 : e'.nodeIn = e.nodeIn := by show e'.shape.nodeIn = e.shape.nodeIn; rw [hs]
  have k2 : e'.nodeOut = e.nodeOut := by show e'.shape.nodeOut = e.shape.nodeOut; rw [hs]
  exact ⟨e', he', k1.trans h1, k2.trans h2⟩

theorem remainingOf_eq {g : AG K} {i : Nat} {r : K} :
    g.remainingOf i = .ok r ↔ ∃ e, g.edgeObjs[i]? = some e ∧ e.remaining = some r := by
  unfold AG.remainingOf
  cases he : g.edgeObjs[i]? with
  | none => simp
  | some e =>
    cases hr : e.remaining with
    | none => simp [hr]
    | some s => simp [hr]

/-- The effect of the recorded transports through several edges between the same nodes. -/
theorem transportLoop_ok {nin nout : Nat} {raise : Bool} (l : List (Nat × K)) {g g' : AG K} {outs : List K}
    (hc : ∀ p ∈ l, Connects g nin nout p.1) (hn : (l.map Prod.fst).Nodup)
    (h : g.transportLoop true raise l = (.ok outs, g')) :
    outs = l.map (fun p => p.2 * priceOf g p.1) ∧
    (∀ n, amountOf g' n = (amountOf g n).map fun x =>
      x + (if n = nout then outs.sum else 0) - (if n = nin then (l.map Prod.snd).sum else 0)) ∧
    (∀ p ∈ l, ∃ r, g.remainingOf p.1 = .ok r ∧ g'.remainingOf p.1 = .ok (r - p.2) ∧ (raise = true → -eps ≤ r - p.2)) ∧
    (∀ i : Nat, i ∉ l.map Prod.fst → g'.edgeObjs[i]? = g.edgeObjs[i]?) ∧
    (raise = true → l ≠ [] → ∀ x, amountOf g' nin = some x → -eps ≤ x) := by
  induction l generalizing g g' outs with
  | nil =>
    have h1 := Except.ok.inj (congrArg Prod.fst h)
    have h2 : g = g' := congrArg Prod.snd h
    subst h2
    subst h1
    refine ⟨rfl, fun n => ?_, by simp, by simp, by simp⟩
    simp
  | cons p l ih =>
    obtain ⟨i, a⟩ := p
    unfold AG.transportLoop at h
    have hshape := sameShape_edgeTransport g i (some a) true raise
    cases hr : g.edgeTransport i (some a) true raise with
    | mk r1 g1 =>
    rw [hr] at h hshape
    dsimp only at hshape
    cases r1 with
    | error e => cases h
    | ok o =>
      unfold andThen at h
      dsimp only at h
      cases hl : g1.transportLoop true raise l with
      | mk r2 g2 =>
      rw [hl] at h
      cases r2 with
      | error e => cases h
      | ok os =>
        dsimp only at h
        have h1 := Except.ok.inj (congrArg Prod.fst h)
        have h2 : g2 = g' := congrArg Prod.snd h
        subst h2
        subst h1
        rw [List.map_cons, List.nodup_cons] at hn
        obtain ⟨hi, hn⟩ := hn
        obtain ⟨e, r, he, ham, her, hz, -, -, ho, hcap, hobj, hamt, hnode⟩ := edgeTransport_ok hr
        obtain ⟨i1, i2, i3, i4, i5⟩ := ih (fun p hp => hshape.connects (hc p (List.mem_cons_of_mem _ hp))) hn hl
        obtain ⟨e', he', hin, hout⟩ := hc (i, a) (by simp)
        rw [he] at he'
        have := Option.some.inj he'
        subst this
        have hother : ∀ j : Nat, j ≠ i → g1.edgeObjs[j]? = g.edgeObjs[j]? := by
          intro j hj
          rw [hobj, List.getElem?_modify_ne _ _ (Ne.symm hj)]
        refine ⟨?_, ?_, ?_, ?_, ?_⟩
        · rw [i1, List.map_cons]
          congr 1
          · rw [ho]
            unfold priceOf
            rw [he]
            rfl
          · apply List.map_congr_left
            intro p _
            rw [hshape.price]
        · intro n
          rw [i2, hamt, Option.map_map]
          congr 1
          funext x
          simp only [Function.comp, List.sum_cons, List.map_cons, hin, hout]
          split <;> split <;> ring
        · intro p hp
          rcases List.mem_cons.1 hp with rfl | hp
          · refine ⟨r, remainingOf_eq.2 ⟨e, he, her⟩, remainingOf_eq.2 ⟨{ e with remaining := some (r - a) }, ?_, rfl⟩, hcap⟩
            dsimp only
            rw [i4 i hi, hobj, List.getElem?_modify_eq, he]
            rfl
          · obtain ⟨r', hr', hr2, hr3⟩ := i3 p hp
            refine ⟨r', ?_, hr2, hr3⟩
            have hne : p.1 ≠ i := by
              intro hc
              rw [← hc] at hi
              exact hi (List.mem_map.2 ⟨p, hp, rfl⟩)
            obtain ⟨e2, he2, hre2⟩ := remainingOf_eq.1 hr'
            rw [hother _ hne] at he2
            exact remainingOf_eq.2 ⟨e2, he2, hre2⟩
        · intro j hj
          rw [List.map_cons, List.mem_cons, not_or] at hj
          rw [i4 j hj.2, hother j hj.1]
        · intro hrz _ x hx
          by_cases hl0 : l = []
          · subst hl0
            have : g1 = g2 := congrArg Prod.snd hl
            subst this
            rw [← hin] at hx
            exact hnode hrz x hx
          · exact i5 hrz hl0 x hx

theorem filterEdges_connects {g : AG K} {a b i : Nat} (h : i ∈ g.filterEdges (some a) (some b)) : i ∈ g.edges ∧ Connects g a b i := by
  unfold AG.filterEdges at h
  rw [List.mem_filter] at h
  refine ⟨h.1, ?_⟩
  have h2 := h.2
  cases he : g.edgeObjs[i]? with
  | none => rw [he] at h2; cases h2
  | some e =>
    rw [he] at h2
    simp only [Option.all_some, Bool.and_eq_true, beq_iff_eq] at h2
    exact ⟨e, he, h2.1, h2.2⟩

theorem mem_filterEdges {g : AG K} {a b i : Nat} : i ∈ g.filterEdges (some a) (some b) ↔ i ∈ g.edges ∧ Connects g a b i := by
  constructor
  · exact filterEdges_connects
  · rintro ⟨h1, e, he, rfl, rfl⟩
    unfold AG.filterEdges
    rw [List.mem_filter]
    refine ⟨h1, ?_⟩
    rw [he]
    simp

theorem mapM_remaining {g : AG K} : ∀ {l : List Nat} {caps : List K}, l.mapM g.remainingOf = .ok caps →
    ∃ rem : Nat → K, caps = l.map rem ∧ ∀ i ∈ l, g.remainingOf i = .ok (rem i) := by
  intro l caps h
  refine ⟨fun i => match g.remainingOf i with | .ok r => r | .error _ => 0, ?_⟩
  induction l generalizing caps with
  | nil =>
    rw [List.mapM_nil] at h
    exact ⟨(Except.ok.inj h).symm, by simp⟩
  | cons i l ih =>
    rw [List.mapM_cons, Py.bind_eq_ok] at h
    obtain ⟨r, hr, h⟩ := h
    rw [Py.bind_eq_ok] at h
    obtain ⟨rs, hrs, h⟩ := h
    obtain ⟨h1, h2⟩ := ih hrs
    have h3 : r :: rs = caps := Except.ok.inj h
    refine ⟨?_, ?_⟩
    · rw [← h3, List.map_cons, hr, ← h1]
    · intro j hj
      rcases List.mem_cons.1 hj with rfl | hj
      · dsimp only; rw [hr]
      · exact h2 j hj

theorem sum_share (l : List Nat) (rem : Nat → K) (f : K) : (l.map fun i => rem i * f).sum = (l.map rem).sum * f := by
  induction l with
  | nil => simp
  | cons i l ih => simp [ih, add_mul]

/-- C46: a recorded transport that succeeds sends exactly the amount in, split in proportion to what is left of the capacities; the
output is what the prices of the edges give; the balances of the two nodes and the remaining capacities change by exactly these amounts
and nothing else changes; and with errors raised no capacity and no balance is overdrawn. -/
theorem C46_transport [PySqrt K] {dup : Bool} {g g' : AG K} (hg : Reach dup g) {amt : K} {s t : Str} {raise : Bool}
    {res : AG.TransportResult K} (h : g.transport amt s t true raise = (.ok res, g')) :
    ∃ (nin nout : Nat) (rem : Nat → K),
      (g.nodeByTkn s).1 = .ok nin ∧ (g.nodeByTkn t).1 = .ok nout ∧
      (∀ i, i ∈ res.edges ↔ i ∈ g.edges ∧ Connects g nin nout i) ∧ res.edges.Nodup ∧ res.edges ≠ [] ∧
      (∀ i ∈ res.edges, g.remainingOf i = .ok (rem i)) ∧ (res.edges.map rem).sum ≠ 0 ∧
      res.amountIn = amt ∧ res.amountsIn = res.edges.map (fun i => rem i * (amt / (res.edges.map rem).sum)) ∧
      res.amountsIn.sum = amt ∧
      res.amountsOut = res.edges.map (fun i => rem i * (amt / (res.edges.map rem).sum) * priceOf g i) ∧
      res.amountOut = res.amountsOut.sum ∧
      (∀ n, amountOf g' n = (amountOf g n).map fun x =>
        x + (if n = nout then res.amountOut else 0) - (if n = nin then amt else 0)) ∧
      (∀ i ∈ res.edges, g'.remainingOf i = .ok (rem i - rem i * (amt / (res.edges.map rem).sum)) ∧
        (raise = true → -eps ≤ rem i - rem i * (amt / (res.edges.map rem).sum))) ∧
      (∀ i, i ∉ res.edges → g'.edgeObjs[i]? = g.edgeObjs[i]?) ∧
      (g'.nodes = g.nodes ∧ g'.edges = g.edges ∧ g'.byTkn = g.byTkn) ∧
      (raise = true → ∀ x, amountOf g' nin = some x → -eps ≤ x) := by
  have w := C45_consistent hg
  have hsh := sameShape_transport g amt s t true raise
  rw [h] at hsh
  unfold AG.transport at h
  cases hr : g.routing amt s t with
  | error e => rw [hr] at h; cases h
  | ok ea =>
    obtain ⟨es, amts⟩ := ea
    rw [hr] at h
    dsimp only at h
    unfold AG.routing at hr
    rw [Py.bind_eq_ok] at hr
    obtain ⟨nin, hnin, hr⟩ := hr
    rw [Py.bind_eq_ok] at hr
    obtain ⟨nout, hnout, hr⟩ := hr
    dsimp only at hr
    split at hr
    · cases hr
    · rename_i hne
      rw [Py.bind_eq_ok] at hr
      obtain ⟨caps, hcaps, hr⟩ := hr
      rw [Py.bind_eq_ok] at hr
      obtain ⟨f, hf, hr⟩ := hr
      have hpair := Except.ok.inj hr
      have hes : g.filterEdges (some nin) (some nout) = es := congrArg Prod.fst hpair
      have hamts : caps.map (· * f) = amts := congrArg Prod.snd hpair
      rw [hes] at hcaps hne
      obtain ⟨rem, hcr, hrem⟩ := mapM_remaining hcaps
      obtain ⟨hz, hfq⟩ := pyDiv_eq_ok' hf
      rw [hcr] at hz hfq
      have hnd : es.Nodup := by
        rw [← hes]
        exact w.edges_nodup.filter _
      have hzip : es.zip amts = es.map fun i => (i, rem i * f) := by
        rw [← hamts, hcr, List.map_map]
        clear hpair hes hcaps hne hcr hrem hz hfq hnd hr h
        induction es with
        | nil => rfl
        | cons i es ih => simp [ih]
      have hl1 : (es.zip amts).map Prod.fst = es := by
        rw [hzip, List.map_map]
        exact List.map_id _
      have hl2 : (es.zip amts).map Prod.snd = es.map fun i => rem i * f := by
        rw [hzip, List.map_map]
        rfl
      cases hl : g.transportLoop true raise (es.zip amts) with
      | mk r1 g1 =>
      rw [hl] at h
      cases r1 with
      | error e => cases h
      | ok outs =>
        unfold andThen at h
        dsimp only at h
        have h1 := Except.ok.inj (congrArg Prod.fst h)
        have h2 : g1 = g' := congrArg Prod.snd h
        subst h2
        subst h1
        have hconn : ∀ p ∈ es.zip amts, Connects g nin nout p.1 := by
          intro p hp
          have : p.1 ∈ es := by rw [← hl1]; exact List.mem_map_of_mem hp
          rw [← hes] at this
          exact (filterEdges_connects this).2
        obtain ⟨k1, k2, k3, k4, k5⟩ := transportLoop_ok (es.zip amts) hconn (by rw [hl1]; exact hnd) hl
        have hsum : (es.map fun i => rem i * f).sum = amt := by
          rw [sum_share, hfq]
          field_simp
        have hain : amts = es.map fun i => rem i * f := by
          rw [← hamts, hcr, List.map_map]
          rfl
        refine ⟨nin, nout, rem, hnin, hnout, ?_, hnd, hne, hrem, hz, rfl, ?_, ?_, ?_, rfl, ?_, ?_, ?_, ?_, ?_⟩
        · intro i
          dsimp only
          rw [← hes]
          exact mem_filterEdges
        · dsimp only; rw [hain, hfq]
        · dsimp only; rw [hain, hsum]
        · dsimp only
          rw [k1, hzip, List.map_map, hfq]
          rfl
        · intro n
          rw [k2 n, hl2, hsum]
        · intro i hi
          obtain ⟨r, hr1, hr2, hr3⟩ := k3 (i, rem i * f) (by rw [hzip]; exact List.mem_map_of_mem hi)
          rw [hrem i hi] at hr1
          have := Except.ok.inj hr1
          subst this
          dsimp only at hr2 hr3 ⊢
          rw [← hfq]
          exact ⟨hr2, hr3⟩
        · intro i hi
          exact k4 i (by rw [hl1]; exact hi)
        · exact ⟨hsh.nodes, hsh.edges, hsh.byTkn⟩
        · intro hrz
          refine k5 hrz ?_
          intro hc
          rw [hc] at hl1
          exact hne (by simpa using hl1.symm)

theorem edgeTransport_dry (g : AG K) (i : Nat) (a : Option K) (raise : Bool) : (g.edgeTransport i a false raise).2 = g := by
  unfold AG.edgeTransport
  cases g.edgeObjs[i]? with
  | none => rfl
  | some e =>
    dsimp only
    rw [if_neg (by simp)]
    split
    · rfl
    · rw [if_pos (by simp)]

theorem transportLoop_dry (g : AG K) (raise : Bool) (l : List (Nat × K)) : (g.transportLoop false raise l).2 = g := by
  induction l with
  | nil => rfl
  | cons p l ih =>
    obtain ⟨i, a⟩ := p
    unfold AG.transportLoop
    have h1 := edgeTransport_dry g i (some a) raise
    generalize g.edgeTransport i (some a) false raise = r at h1
    obtain ⟨r, g1⟩ := r
    dsimp only at h1
    subst h1
    cases r with
    | error e => rfl
    | ok o =>
      unfold andThen
      dsimp only
      generalize g1.transportLoop false raise l = r at ih
      obtain ⟨r, g2⟩ := r
      dsimp only at ih
      subst ih
      cases r <;> rfl

/-- C46: without recording nothing changes, whether or not the transport succeeds. -/
theorem C46_dry (g : AG K) (amt : K) (s t : Str) (raise : Bool) : (g.transport amt s t false raise).2 = g := by
  unfold AG.transport
  split
  · rfl
  · rename_i es amts _
    have h1 := transportLoop_dry g raise (es.zip amts)
    generalize g.transportLoop false raise (es.zip amts) = r at h1
    obtain ⟨r, g1⟩ := r
    cases r <;> exact h1

/-- C46: setting the balance of a node changes this balance and nothing else. -/
theorem C46_set (g : AG K) (n : Nat) (v : K) (m : Nat) :
    amountOf (g.setAmount n v) m = (if m = n then (amountOf g n).map fun _ => v else amountOf g m) ∧ (g.setAmount n v).edgeObjs = g.edgeObjs := by
  refine ⟨?_, rfl⟩
  unfold amountOf AG.setAmount
  dsimp only
  rw [List.getElem?_modify]
  split
  · rename_i h
    subst h
    rw [if_pos rfl]
    cases g.nodeObjs[n]? <;> rfl
  · rename_i h
    rw [if_neg (Ne.symm h)]
    cases g.nodeObjs[m]? <;> rfl

/-- C46: a reset clears all balances and restores the full capacity of all edges, also after transports, whether they succeeded or not: it
is then as if they had not taken place. -/
theorem C46_reset [PySqrt K] {dup : Bool} {g : AG K} (hg : Reach dup g) :
    (∀ n ∈ g.nodes, amountOf g.resetState n = some 0) ∧
    (∀ i ∈ g.edges, ∀ e, g.edgeObjs[i]? = some e → e.isAmount = true → g.resetState.remainingOf i = .ok e.amountIn) ∧
    ∀ (amt : K) (s t : Str) (record raise : Bool), let g' := (g.transport amt s t record raise).2
      (∀ n ∈ g.nodes, amountOf g'.resetState n = amountOf g.resetState n) ∧
        ∀ i ∈ g.edges, g'.resetState.remainingOf i = g.resetState.remainingOf i := by
  have zero : ∀ g : AG K, WF g → ∀ n ∈ g.nodes, amountOf g.resetState n = some 0 := by
    intro g w n hn
    obtain ⟨i, hi⟩ := List.mem_iff_getElem?.1 hn
    obtain ⟨v, hv, _⟩ := w.nodeIx i n hi
    unfold amountOf AG.resetState
    dsimp only
    rw [List.getElem?_mapIdx, hv]
    simp only [Option.map_some, if_pos hn]
  have lk : ∀ (g : AG K) (k : Nat), g.resetState.edgeObjs[k]? = (g.edgeObjs[k]?).map fun e => if k ∈ g.edges then e.resetState else e := by
    intro g k
    unfold AG.resetState
    dsimp only
    rw [List.getElem?_mapIdx]
  have full : ∀ g : AG K, ∀ i ∈ g.edges, ∀ e, g.edgeObjs[i]? = some e → e.isAmount = true → g.resetState.remainingOf i = .ok e.amountIn := by
    intro g i hi e he ha
    unfold AG.remainingOf
    rw [lk, he]
    simp only [Option.map_some, if_pos hi]
    unfold Edge.resetState
    rw [if_pos ha]
  have w := C45_consistent hg
  refine ⟨zero g w, full g, ?_⟩
  intro amt s t record raise g'
  have sh : SameShape g g' := sameShape_transport g amt s t record raise
  have w' : WF g' := w.of_sameShape sh
  constructor
  · intro n hn
    rw [zero g w n hn, zero g' w' n (by rw [sh.nodes]; exact hn)]
  · intro i hi
    have hi' : i ∈ g'.edges := by rw [sh.edges]; exact hi
    obtain ⟨j, hj⟩ := List.mem_iff_getElem?.1 hi
    obtain ⟨e, he, _⟩ := w.edgeIx j i hj
    obtain ⟨j', hj'⟩ := List.mem_iff_getElem?.1 hi'
    obtain ⟨e', he', _⟩ := w'.edgeIx j' i hj'
    have hee : e'.shape = e.shape := by
      have := sh.edge i
      rw [he, he'] at this
      exact Option.some.inj this
    have hin : e'.amountIn = e.amountIn := by
      have := congrArg Edge.amountIn hee
      exact this
    have hty : e'.isAmount = e.isAmount := by unfold Edge.isAmount; rw [hin]
    cases ha : e.isAmount with
    | true => rw [full g i hi e he ha, full g' i hi' e' he' (hty.trans ha), hin]
    | false =>
      have s1 := w.state e (mem_edgeList.2 ⟨i, hi, he⟩)
      have s2 := w'.state e' (mem_edgeList.2 ⟨i, hi', he'⟩)
      rw [hty] at s2
      rw [ha] at s1 s2
      have n1 : e.remaining = none := by simpa using s1
      have n2 : e'.remaining = none := by simpa using s2
      unfold AG.remainingOf
      rw [lk, lk, he, he']
      simp only [Option.map_some, if_pos hi, if_pos hi']
      unfold Edge.resetState
      rw [hty, ha]
      simp only [Bool.false_eq_true, if_false]
      rw [n1, n2]

/-- The edge takes the amount: it has amounts, and between its capacity and nothing is left of it, at least the amount. -/
def Takes (g : AG K) (i : Nat) (r a : K) : Prop :=
  ∃ e, g.edgeObjs[i]? = some e ∧ e.isAmount = true ∧ 0 < e.amountIn ∧ e.remaining = some r ∧ 0 ≤ a ∧ a ≤ r ∧ r ≤ e.amountIn

theorem edgeTransport_succeeds {nin nout : Nat} (hne : nin ≠ nout) {g : AG K} {i : Nat} {a r x : K} {raise : Bool}
    (hc : Connects g nin nout i) (ht : Takes g i r a) (hx : amountOf g nin = some x) (ha : a ≤ x) :
    ∃ o g', g.edgeTransport i (some a) true raise = (.ok o, g') := by
  obtain ⟨e, he, hin, hout⟩ := hc
  obtain ⟨e', he', ham, hp, hr, h0, h1, h2⟩ := ht
  rw [he] at he'
  have := Option.some.inj he'
  subst this
  have hpos := eps_pos (K := K)
  unfold AG.edgeTransport
  rw [he]
  dsimp only [Option.getD_some]
  rw [if_neg (by simp [ham])]
  have ho : e.out a = .ok (a * (e.amountOut / e.amountIn)) := by
    unfold Edge.out
    rw [if_neg (by push Not; intro _; linarith), if_neg (by push Not; intro _; linarith), UICurve.pyDiv_ok hp.ne', mul_div_assoc]
  rw [ho]
  dsimp only
  rw [if_neg (by simp), hr]
  dsimp only
  rw [if_neg (by push Not; intro hh; exact absurd hh (by linarith)), if_neg]
  · exact ⟨_, _, rfl⟩
  · rintro ⟨hh, -⟩
    rw [amountOf_modify _ _ _ fun y => y - a, amountOf_modify _ _ _ fun y => y + a * (e.amountOut / e.amountIn), hin, hout] at hh
    unfold amountOf at hx
    rw [hx] at hh
    simp only [Option.map_some, if_true, Option.any_some, decide_eq_true_eq, if_neg hne.symm] at hh
    linarith

theorem transportLoop_succeeds {nin nout : Nat} (hne : nin ≠ nout) {raise : Bool} (l : List (Nat × K)) {g : AG K} {x : K}
    (hc : ∀ p ∈ l, Connects g nin nout p.1 ∧ ∃ r, Takes g p.1 r p.2) (hn : (l.map Prod.fst).Nodup)
    (hx : amountOf g nin = some x) (hs : (l.map Prod.snd).sum ≤ x) :
    ∃ outs g', g.transportLoop true raise l = (.ok outs, g') := by
  induction l generalizing g x with
  | nil => exact ⟨_, _, rfl⟩
  | cons p l ih =>
    obtain ⟨i, a⟩ := p
    rw [List.map_cons, List.sum_cons] at hs
    rw [List.map_cons, List.nodup_cons] at hn
    obtain ⟨hi, hn⟩ := hn
    obtain ⟨hci, r, hti⟩ := hc (i, a) (by simp)
    have hnn : 0 ≤ (l.map Prod.snd).sum := by
      apply List.sum_nonneg
      intro y hy
      obtain ⟨p, hp, rfl⟩ := List.mem_map.1 hy
      obtain ⟨-, r, e, -, -, -, -, h0, -⟩ := hc p (List.mem_cons_of_mem _ hp)
      exact h0
    obtain ⟨o, g1, hr⟩ := edgeTransport_succeeds (raise := raise) hne hci hti hx (by linarith)
    have hshape := sameShape_edgeTransport g i (some a) true raise
    rw [hr] at hshape
    dsimp only at hshape
    obtain ⟨e, r, he, -, -, -, -, -, -, -, hobj, hamt, -⟩ := edgeTransport_ok hr
    obtain ⟨e', he', hin, hout⟩ := hci
    rw [he] at he'
    have := Option.some.inj he'
    subst this
    have hc' : ∀ p ∈ l, Connects g1 nin nout p.1 ∧ ∃ r, Takes g1 p.1 r p.2 := by
      intro p hp
      obtain ⟨h1, r, h2⟩ := hc p (List.mem_cons_of_mem _ hp)
      refine ⟨hshape.connects h1, r, ?_⟩
      have hpi : p.1 ≠ i := by
        intro hh
        rw [← hh] at hi
        exact hi (List.mem_map.2 ⟨p, hp, rfl⟩)
      have : g1.edgeObjs[p.1]? = g.edgeObjs[p.1]? := by rw [hobj, List.getElem?_modify_ne _ _ (Ne.symm hpi)]
      unfold Takes
      rw [this]
      exact h2
    have hx' : amountOf g1 nin = some (x - a) := by
      rw [hamt, hx, hin, hout, Option.map_some, if_neg hne, if_pos rfl, add_zero]
    obtain ⟨os, g2, hl⟩ := ih hc' hn hx' (by linarith)
    refine ⟨o :: os, g2, ?_⟩
    unfold AG.transportLoop
    rw [hr]
    unfold andThen
    dsimp only
    rw [hl]

/-- C46: the transport succeeds if the node holds the amount and the edges have the capacity. -/
theorem C46_success [PySqrt K] {dup : Bool} {g : AG K} (hg : Reach dup g) {amt x : K} {s t : Str} {raise : Bool} {nin nout : Nat}
    (hs : (g.nodeByTkn s).1 = .ok nin) (ht : (g.nodeByTkn t).1 = .ok nout) (hne : nin ≠ nout) {rem : Nat → K}
    (hrem : ∀ i ∈ g.edges, Connects g nin nout i → ∃ e, g.edgeObjs[i]? = some e ∧ e.isAmount = true ∧ 0 < e.amountIn ∧
      e.remaining = some (rem i) ∧ 0 ≤ rem i ∧ rem i ≤ e.amountIn)
    (hpos : 0 < ((g.filterEdges (some nin) (some nout)).map rem).sum)
    (hamt : 0 ≤ amt ∧ amt ≤ ((g.filterEdges (some nin) (some nout)).map rem).sum) (hx : amountOf g nin = some x) (hax : amt ≤ x) :
    ∃ res g', g.transport amt s t true raise = (.ok res, g') := by
  have w := C45_consistent hg
  generalize hes : g.filterEdges (some nin) (some nout) = es at *
  have hnd : es.Nodup := by
    rw [← hes]
    exact w.edges_nodup.filter _
  have hmem : ∀ i ∈ es, Connects g nin nout i ∧ ∃ e, g.edgeObjs[i]? = some e ∧ e.isAmount = true ∧ 0 < e.amountIn ∧
      e.remaining = some (rem i) ∧ 0 ≤ rem i ∧ rem i ≤ e.amountIn := by
    intro i hi
    rw [← hes] at hi
    have := filterEdges_connects hi
    exact ⟨this.2, hrem i this.1 this.2⟩
  have hmap : ∀ l : List Nat, (∀ i ∈ l, i ∈ es) → l.mapM g.remainingOf = .ok (l.map rem) := by
    intro l hl
    induction l with
    | nil => rfl
    | cons i l ih =>
      obtain ⟨-, e, he, -, -, hr, -⟩ := hmem i (hl i (by simp))
      rw [List.mapM_cons, remainingOf_eq.2 ⟨e, he, hr⟩, Py.ok_bind, ih fun j hj => hl j (List.mem_cons_of_mem _ hj), Py.ok_bind]
      rfl
  have hrout : g.routing amt s t = .ok (es, (es.map rem).map (· * (amt / (es.map rem).sum))) := by
    unfold AG.routing
    rw [hs, Py.ok_bind, ht, Py.ok_bind]
    dsimp only
    rw [hes, if_neg (by rintro rfl; simp at hpos), hmap es fun _ h => h, Py.ok_bind, UICurve.pyDiv_ok hpos.ne', Py.ok_bind]
  unfold AG.transport
  rw [hrout]
  dsimp only
  rw [List.map_map]
  have hf0 : 0 ≤ amt / (es.map rem).sum := div_nonneg hamt.1 hpos.le
  have hf1 : amt / (es.map rem).sum ≤ 1 := (div_le_one hpos).2 hamt.2
  have hsum := sum_share es rem (amt / (es.map rem).sum)
  rw [mul_div_cancel₀ _ hpos.ne'] at hsum
  generalize amt / (es.map rem).sum = f at *
  have hzip : es.zip (es.map ((· * f) ∘ rem)) = es.map fun i => (i, rem i * f) := by
    have : ∀ l : List Nat, l.zip (l.map ((· * f) ∘ rem)) = l.map fun i => (i, rem i * f) := by
      intro l
      induction l with
      | nil => rfl
      | cons i l ih => simp [ih]
    exact this es
  obtain ⟨outs, g', hl⟩ := transportLoop_succeeds (raise := raise) hne (es.map fun i => (i, rem i * f)) (g := g) (x := x) (by
      intro p hp
      obtain ⟨i, hi, rfl⟩ := List.mem_map.1 hp
      obtain ⟨hc, e, he, h1, h2, h3, h4, h5⟩ := hmem i hi
      exact ⟨hc, rem i, e, he, h1, h2, h3, mul_nonneg h4 hf0, mul_le_of_le_one_right h4 hf1, h5⟩)
    (by rw [List.map_map]; exact (List.map_id _).symm ▸ hnd) hx
    (by rw [List.map_map]; exact le_trans (le_of_eq hsum) hax)
  rw [hzip, hl]
  exact ⟨_, _, rfl⟩

theorem hasCapacity_false {g : AG K} {l : List Nat} (h : ∀ i ∈ l, ∃ r, g.remainingOf i = .ok r ∧ r ≤ eps) :
    g.hasCapacity l = .ok false := by
  induction l with
  | nil => rfl
  | cons i l ih =>
    obtain ⟨r, hr, hle⟩ := h i (by simp)
    unfold AG.hasCapacity
    rw [hr, Py.ok_bind, if_neg (not_lt.2 hle), ih fun j hj => h j (List.mem_cons_of_mem _ hj)]

/-- C46: transporting all that is left of the capacity leaves no capacity between the two nodes. -/
theorem C46_exhaust [PySqrt K] {dup : Bool} {g g' : AG K} (hg : Reach dup g) {amt : K} {s t : Str} {raise : Bool}
    {res : AG.TransportResult K} (h : g.transport amt s t true raise = (.ok res, g')) {caps : List K}
    (hcaps : res.edges.mapM g.remainingOf = .ok caps) (hall : amt = caps.sum) : g'.hasCapacity res.edges = .ok false := by
  obtain ⟨nin, nout, rem, -, -, -, -, -, hr, hz, -, -, -, -, -, -, hrem, -⟩ := C46_transport hg h
  obtain ⟨rem', hc', hr'⟩ := mapM_remaining hcaps
  have : res.edges.map rem' = res.edges.map rem := by
    apply List.map_congr_left
    intro i hi
    exact Except.ok.inj ((hr' i hi).symm.trans (hr i hi))
  rw [hc', this] at hall
  apply hasCapacity_false
  intro i hi
  refine ⟨_, (hrem i hi).1, ?_⟩
  rw [hall, div_self hz, mul_one, sub_self]
  exact eps_pos.le

end

/-- A graph with two edges from `A` to `B` and 12 of `A` to spend. -/
def exParallel : AG ℚ :=
  let g := (AG.empty.addEdge "A".toList 10 "B".toList 20).2
  let g := (g.addEdge "A".toList 5 "B".toList 15).2
  g.setAmount 0 12

theorem exParallel_reach : Reach false exParallel :=
  .setAmount _ _ (.addEdge _ _ _ _ _ _ (.addEdge _ _ _ _ _ _ .empty))

example : (exParallel.transport 6 "A".toList "B".toList).1 =
    .ok { amountIn := 6, amountOut := 14, amountsIn := [4, 2], amountsOut := [8, 6], edges := [0, 1] } := by decide +kernel
example : amountOf (exParallel.transport 6 "A".toList "B".toList).2 0 = some 6 ∧
    amountOf (exParallel.transport 6 "A".toList "B".toList).2 1 = some 14 ∧
    (exParallel.transport 6 "A".toList "B".toList).2.remainingOf 0 = .ok 6 ∧
    (exParallel.transport 6 "A".toList "B".toList).2.remainingOf 1 = .ok 3 := by decide +kernel
example : (exParallel.transport 16 "A".toList "B".toList).1 = .error .assertion ∧
    (exParallel.transport 1 "B".toList "A".toList).1 = .error .value ∧
    (exParallel.transport 1 "A".toList "C".toList).1 = .error .key := by decide +kernel

/-- C46: a recorded transport that fails is not undone; here the first edge has been used when the balance runs out on the second. -/
theorem C46_atomic_violated : ∃ (g : AG ℚ) (e : Err) (i : Nat), Reach false g ∧
    (g.transport 15 "A".toList "B".toList).1 = .error e ∧ g.remainingOf i = .ok 10 ∧
    (g.transport 15 "A".toList "B".toList).2.remainingOf i = .ok 0 :=
  ⟨exParallel, .value, 0, exParallel_reach, by decide +kernel, by decide +kernel, by decide +kernel⟩

end Arb

end Carbon
