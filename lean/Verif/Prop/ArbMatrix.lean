import Mathlib.Combinatorics.SimpleGraph.LapMatrix
import Verif.Prop.ArbFormat

/-!
# C137: matrices and connectedness of the graph
-/

set_option linter.unusedSectionVars false

namespace Carbon

namespace Arb

section
variable {K : Type} [Field K] [LinearOrder K] [IsStrictOrderedRing K]

/-- The tokens of the graph, joined if there is an edge between them, in whatever direction. -/
def tokenGraph (g : AG K) : SimpleGraph (Fin g.nodes.length) where
  Adj i j := i ≠ j ∧ (edgesFrom g g.nodes[i] g.nodes[j] ≠ [] ∨ edgesFrom g g.nodes[j] g.nodes[i] ≠ [])
  symm := ⟨fun _ _ h => ⟨h.1.symm, h.2.symm⟩⟩
  loopless := ⟨fun _ h => h.1 rfl⟩

/-- The matrix with the given rows. -/
def toMatrix (n : Nat) (rows : List (List Int)) : Matrix (Fin n) (Fin n) Int := fun i j => (rows.getD i []).getD j 0

theorem joined_iff {g : AG K} (w : WF g) (directed : Bool) (i j : Fin g.nodes.length) : g.joined directed i j = true ↔
    edgesFrom g g.nodes[i] g.nodes[j] ≠ [] ∨ (directed = false ∧ edgesFrom g g.nodes[j] g.nodes[i] ≠ []) := by
  have key : ∀ i j : Fin g.nodes.length, ((i : Nat), (j : Nat)) ∈ g.arcs ↔ edgesFrom g g.nodes[i] g.nodes[j] ≠ [] := by
    intro i j
    rw [mem_arcs w]
    constructor
    · rintro ⟨x, y, hx, hy, h⟩
      rw [List.getElem?_eq_getElem i.2] at hx
      rw [List.getElem?_eq_getElem j.2] at hy
      rw [Option.some.injEq] at hx hy
      subst hx; subst hy
      exact h
    · intro h
      exact ⟨_, _, List.getElem?_eq_getElem i.2, List.getElem?_eq_getElem j.2, h⟩
  unfold AG.joined
  rw [Bool.or_eq_true, decide_eq_true_iff, Bool.and_eq_true, decide_eq_true_iff, key, key]
  cases directed <;> simp

theorem toMatrix_rows (n : Nat) (f : Nat → Nat → Int) (i j : Fin n) :
    toMatrix n ((List.range n).map fun i => (List.range n).map fun j => f i j) i j = f i j := by
  unfold toMatrix
  rw [List.getD_eq_getElem?_getD, List.getD_eq_getElem?_getD, List.getElem?_map, List.getElem?_range i.2]
  simp [List.getElem?_map, List.getElem?_range j.2]

/-- C137: the adjacency matrix is a square with a row for every token; the entry is one if there is an edge from the token of the row to the
token of the column, or, if directions do not matter, an edge between the two. -/
theorem C137_adjacency [PySqrt K] {dup : Bool} {g : AG K} (hg : Reach dup g) (directed : Bool) :
    ∃ M, g.adjacency directed = .ok M ∧ M.length = g.nodes.length ∧ (∀ row ∈ M, row.length = g.nodes.length) ∧
      ∀ i j : Fin g.nodes.length,
        (toMatrix _ M i j = 1 ∧ (edgesFrom g g.nodes[i] g.nodes[j] ≠ [] ∨ (directed = false ∧ edgesFrom g g.nodes[j] g.nodes[i] ≠ []))) ∨
        (toMatrix _ M i j = 0 ∧ ¬ (edgesFrom g g.nodes[i] g.nodes[j] ≠ [] ∨ (directed = false ∧ edgesFrom g g.nodes[j] g.nodes[i] ≠ []))) := by
  have w := C45_consistent hg
  refine ⟨_, rfl, ?_, ?_, ?_⟩
  · rw [List.length_map, ixs_eq w, List.length_range]
  · intro row hr
    obtain ⟨i, -, rfl⟩ := List.mem_map.1 hr
    rw [List.length_map, ixs_eq w, List.length_range]
  · intro i j
    rw [ixs_eq w, toMatrix_rows, ← joined_iff w directed i j]
    by_cases h : g.joined directed i j = true
    · rw [if_pos h]
      exact .inl ⟨rfl, h⟩
    · rw [if_neg h]
      exact .inr ⟨rfl, h⟩

theorem count_out {g : AG K} (w : WF g) (i : Nat) :
    (((g.arcs.filter fun a => a.1 = i).length : Nat) : Int) = ∑ j : Fin g.nodes.length, if g.joined true i j then 1 else 0 := by
  rw [Finset.sum_boole]
  norm_cast
  have : ((g.arcs.filter fun a => a.1 = i).map Prod.snd).Nodup := by
    refine List.Nodup.map_on ?_ ((arcs_nodup g).filter _)
    rintro ⟨a, b⟩ ha ⟨c, d⟩ hc h
    have h1 := of_decide_eq_true (List.mem_filter.1 ha).2
    have h2 := of_decide_eq_true (List.mem_filter.1 hc).2
    simp only at h h1 h2
    rw [h1, h2, h]
  rw [← List.length_map (f := Prod.snd), ← List.toFinset_card_of_nodup this,
    ← Finset.card_map Fin.valEmbedding]
  congr 1
  ext j
  simp only [List.mem_toFinset, List.mem_map, List.mem_filter, decide_eq_true_eq, Finset.mem_map, Finset.mem_filter, Finset.mem_univ, true_and,
    Fin.valEmbedding_apply, Prod.exists, exists_eq_right]
  have hj : ∀ j, g.joined true i j = true ↔ (i, j) ∈ g.arcs := by
    intro j
    unfold AG.joined
    simp
  constructor
  · intro h
    obtain ⟨x, y, hx, hy, -⟩ := (mem_arcs w).1 h
    exact ⟨⟨j, (List.getElem?_eq_some_iff.1 hy).1⟩, (hj j).2 h, rfl⟩
  · rintro ⟨k, h, rfl⟩
    exact (hj _).1 h

theorem count_in {g : AG K} (w : WF g) (i : Nat) :
    (((g.arcs.filter fun a => a.2 = i).length : Nat) : Int) = ∑ j : Fin g.nodes.length, if g.joined true j i then 1 else 0 := by
  rw [Finset.sum_boole]
  norm_cast
  have : ((g.arcs.filter fun a => a.2 = i).map Prod.fst).Nodup := by
    refine List.Nodup.map_on ?_ ((arcs_nodup g).filter _)
    rintro ⟨a, b⟩ ha ⟨c, d⟩ hc h
    have h1 := of_decide_eq_true (List.mem_filter.1 ha).2
    have h2 := of_decide_eq_true (List.mem_filter.1 hc).2
    simp only at h h1 h2
    rw [h1, h2, h]
  rw [← List.length_map (f := Prod.fst), ← List.toFinset_card_of_nodup this,
    ← Finset.card_map Fin.valEmbedding]
  congr 1
  ext j
  simp only [List.mem_toFinset, List.mem_map, List.mem_filter, decide_eq_true_eq, Finset.mem_map, Finset.mem_filter, Finset.mem_univ, true_and,
    Fin.valEmbedding_apply, Prod.exists, exists_and_right, exists_eq_right]
  have hj : ∀ j, g.joined true j i = true ↔ (j, i) ∈ g.arcs := by
    intro j
    unfold AG.joined
    simp
  constructor
  · intro h
    obtain ⟨x, y, hx, hy, -⟩ := (mem_arcs w).1 h
    exact ⟨⟨j, (List.getElem?_eq_some_iff.1 hx).1⟩, (hj j).2 h, rfl⟩
  · rintro ⟨k, h, rfl⟩
    exact (hj _).1 h

/-- C137: the rows of the directed adjacency matrix sum to the outgoing degrees, the columns to the incoming degrees. -/
theorem C137_degrees [PySqrt K] {dup : Bool} {g : AG K} (hg : Reach dup g) {M : List (List Int)} (hM : g.adjacency = .ok M)
    (i : Fin g.nodes.length) :
    ∃ dout din : Nat, ((i : Nat), dout) ∈ g.outDegree ∧ ((i : Nat), din) ∈ g.inDegree ∧
      ∑ j, toMatrix _ M i j = dout ∧ ∑ j, toMatrix _ M j i = din := by
  have w := C45_consistent hg
  have hM : (g.ixs.map fun i => g.ixs.map fun j => if g.joined true i j then (1 : Int) else 0) = M := Except.ok.inj hM
  subst hM
  have hi : (i : Nat) ∈ g.ixs := by
    rw [ixs_eq w]
    exact List.mem_range.2 i.2
  refine ⟨_, _, List.mem_map.2 ⟨i, hi, rfl⟩, List.mem_map.2 ⟨i, hi, rfl⟩, ?_, ?_⟩
  · rw [ixs_eq w, count_out w]
    exact Finset.sum_congr rfl fun j _ => toMatrix_rows _ (fun i j => if g.joined true i j then 1 else 0) i j
  · rw [ixs_eq w, count_in w]
    exact Finset.sum_congr rfl fun j _ => toMatrix_rows _ (fun i j => if g.joined true i j then 1 else 0) j i

theorem laplacian_entry {g : AG K} (w : WF g) (directed : Bool) {L : List (List Int)} (hL : g.laplacian directed = .ok L)
    (i j : Fin g.nodes.length) : toMatrix _ L i j =
      (if i = j then ∑ k : Fin g.nodes.length, (if g.joined directed i k then 1 else 0) else 0) - (if g.joined directed i j then 1 else 0) := by
  have hL : (g.ixs.map fun i => g.ixs.map fun j =>
    (if i = j then (g.ixs.map fun k => if g.joined directed i k then (1 : Int) else 0).sum else 0) -
      (if g.joined directed i j then 1 else 0)) = L := Except.ok.inj hL
  subst hL
  rw [ixs_eq w, toMatrix_rows _ (fun i j => (if i = j then ((List.range g.nodes.length).map fun k => if g.joined directed i k then (1 : Int) else 0).sum
    else 0) - (if g.joined directed i j then 1 else 0))]
  have : ((List.range g.nodes.length).map fun k => if g.joined directed i k then (1 : Int) else 0).sum =
      ∑ k : Fin g.nodes.length, (if g.joined directed i k then 1 else 0) := by
    rw [← List.sum_ofFn]
    congr 1
    apply List.ext_getElem
    · simp
    · intro k h1 h2
      simp
  rw [this]
  simp only [Fin.ext_iff]

open Classical in
/-- C137: the undirected Laplacian is the Laplacian of the graph of the tokens: on the diagonal the number of other tokens with an edge to or from
the token, elsewhere minus one between tokens joined by an edge. -/
theorem C137_laplacian [PySqrt K] {dup : Bool} {g : AG K} (hg : Reach dup g) :
    ∃ L, g.laplacian = .ok L ∧ L.length = g.nodes.length ∧ (∀ row ∈ L, row.length = g.nodes.length) ∧
      toMatrix _ L = (tokenGraph g).lapMatrix Int := by
  have w := C45_consistent hg
  refine ⟨_, rfl, ?_, ?_, ?_⟩
  · rw [List.length_map, ixs_eq w, List.length_range]
  · intro row hr
    obtain ⟨i, -, rfl⟩ := List.mem_map.1 hr
    rw [List.length_map, ixs_eq w, List.length_range]
  · ext i j
    rw [laplacian_entry w false rfl]
    have hadj : ∀ i k : Fin g.nodes.length, (tokenGraph g).Adj i k ↔ i ≠ k ∧ g.joined false i k = true := by
      intro i k
      rw [joined_iff w]
      simp [tokenGraph]
    rw [SimpleGraph.lapMatrix, Matrix.sub_apply, SimpleGraph.degMatrix, Matrix.diagonal_apply, SimpleGraph.adjMatrix_apply,
      SimpleGraph.degree_eq_sum_if_adj]
    by_cases hij : i = j
    · subst hij
      rw [if_pos rfl, if_pos rfl, if_neg (SimpleGraph.irrefl _), sub_zero]
      rw [← Finset.add_sum_erase _ _ (Finset.mem_univ i)]
      rw [← Finset.add_sum_erase (a := i) Finset.univ (fun k => if (tokenGraph g).Adj i k then (1 : Int) else 0) (Finset.mem_univ i)]
      rw [if_neg (SimpleGraph.irrefl _), zero_add, add_sub_cancel_left]
      refine Finset.sum_congr rfl fun k hk => ?_
      have : i ≠ k := (Finset.ne_of_mem_erase hk).symm
      simp only [hadj, this, ne_eq, not_false_eq_true, true_and]
    · rw [if_neg hij, if_neg hij]
      simp only [hadj, hij, ne_eq, not_false_eq_true, true_and]

/-- C137: the rows of the Laplacian sum to zero, directed or not. -/
theorem C137_rows [PySqrt K] {dup : Bool} {g : AG K} (hg : Reach dup g) (directed : Bool) {L : List (List Int)}
    (hL : g.laplacian directed = .ok L) (i : Fin g.nodes.length) : ∑ j, toMatrix _ L i j = 0 := by
  have w := C45_consistent hg
  rw [Finset.sum_congr rfl fun j _ => laplacian_entry w directed hL i j, Finset.sum_sub_distrib, Finset.sum_ite_eq, if_pos (Finset.mem_univ i),
    sub_self]

/-- The real matrix of the Laplacian. -/
def toReal {n : Nat} (M : Matrix (Fin n) (Fin n) Int) : Matrix (Fin n) (Fin n) ℝ := fun i j => (M i j : ℝ)

open Classical in
theorem toReal_lap {n : Nat} (G : SimpleGraph (Fin n)) : toReal (G.lapMatrix Int) = G.lapMatrix ℝ := by
  ext i j
  simp [toReal, SimpleGraph.lapMatrix, SimpleGraph.degMatrix, Matrix.diagonal_apply, SimpleGraph.adjMatrix_apply]

/-- C137: the Laplacian is symmetric and positive semidefinite; it annihilates exactly the values that agree on tokens joined by edges, and the
dimension of its kernel is the number of parts into which the graph falls. -/
theorem C137_spectrum [PySqrt K] {dup : Bool} {g : AG K} (hg : Reach dup g) {L : List (List Int)} (hL : g.laplacian = .ok L) :
    (toReal (toMatrix g.nodes.length L)).IsSymm ∧ (toReal (toMatrix g.nodes.length L)).PosSemidef ∧
      (∀ x : Fin g.nodes.length → ℝ, (toReal (toMatrix g.nodes.length L)).mulVec x = 0 ↔ ∀ i j, (tokenGraph g).Adj i j → x i = x j) ∧
      Module.finrank ℝ (toReal (toMatrix g.nodes.length L)).toLin'.ker = Nat.card (tokenGraph g).ConnectedComponent := by
  classical
  obtain ⟨L', h1, -, -, h2⟩ := C137_laplacian hg
  obtain rfl : L' = L := Except.ok.inj (h1.symm.trans hL)
  rw [h2, toReal_lap]
  refine ⟨SimpleGraph.isSymm_lapMatrix ℝ _, SimpleGraph.posSemidef_lapMatrix ℝ _, fun x => SimpleGraph.lapMatrix_mulVec_eq_zero_iff_forall_adj _, ?_⟩
  rw [← SimpleGraph.card_connectedComponent_eq_finrank_ker_toLin'_lapMatrix, Nat.card_eq_fintype_card]

theorem reach_iff {g : AG K} (w : WF g) (i j : Fin g.nodes.length) :
    Relation.ReflTransGen (fun a b => g.joined false a b = true) (i : Nat) j ↔ (tokenGraph g).Reachable i j := by
  have hadj : ∀ i k : Fin g.nodes.length, (tokenGraph g).Adj i k ↔ i ≠ k ∧ g.joined false i k = true := by
    intro i k
    rw [joined_iff w]
    simp [tokenGraph]
  constructor
  · intro h
    have key : ∀ b, Relation.ReflTransGen (fun a b => g.joined false a b = true) (i : Nat) b →
        ∃ hb : b < g.nodes.length, (tokenGraph g).Reachable i ⟨b, hb⟩ := by
      intro b hb
      induction hb with
      | refl => exact ⟨i.2, SimpleGraph.Reachable.refl _⟩
      | @tail b c _ hbc ih =>
        obtain ⟨hb, hr⟩ := ih
        have hc : c < g.nodes.length := by
          unfold AG.joined at hbc
          rw [Bool.or_eq_true, decide_eq_true_iff] at hbc
          rcases hbc with h | h
          · obtain ⟨x, y, hx, hy, -⟩ := (mem_arcs w).1 h
            exact (List.getElem?_eq_some_iff.1 hy).1
          · simp only [Bool.not_false, Bool.true_and, decide_eq_true_eq] at h
            obtain ⟨x, y, hx, hy, -⟩ := (mem_arcs w).1 h
            exact (List.getElem?_eq_some_iff.1 hx).1
        refine ⟨hc, hr.trans ?_⟩
        by_cases he : b = c
        · subst he
          exact SimpleGraph.Reachable.refl _
        · exact ((hadj ⟨b, hb⟩ ⟨c, hc⟩).2 ⟨by simpa [Fin.ext_iff] using he, hbc⟩).reachable
    exact (key j h).2
  · rintro ⟨p⟩
    induction p with
    | nil => exact .refl
    | cons h _ ih => exact .head ((hadj _ _).1 h).2 ih

/-- C137: the graph is reported as weakly connected exactly if any two tokens are joined by edges, which is the case exactly if the kernel of the
Laplacian has dimension one. Without tokens there is an exception. -/
theorem C137_connected [PySqrt K] {dup : Bool} {g : AG K} (hg : Reach dup g) {L : List (List Int)} (hL : g.laplacian = .ok L) :
    (g.nodes = [] → g.isWeaklyConnected = .error (.custom "NetworkXPointlessConcept")) ∧
      (g.nodes ≠ [] → ∃ b, g.isWeaklyConnected = .ok b ∧ (b = true ↔ (tokenGraph g).Connected) ∧
        (b = true ↔ Module.finrank ℝ (toReal (toMatrix g.nodes.length L)).toLin'.ker = 1)) := by
  classical
  have w := C45_consistent hg
  constructor
  · intro h
    unfold AG.isWeaklyConnected
    rw [if_pos (by rw [ixs_eq w, h]; rfl)]
  · intro h
    have hpos : 0 < g.nodes.length := List.length_pos_iff.2 h
    have hb : ∃ b, g.isWeaklyConnected = .ok b ∧ (b = true ↔ (tokenGraph g).Connected) := by
      unfold AG.isWeaklyConnected
      rw [if_neg (by rw [ixs_eq w, List.range_eq_nil]; omega)]
      refine ⟨_, rfl, ?_⟩
      rw [decide_eq_true_iff, SimpleGraph.connected_iff]
      constructor
      · intro hall
        refine ⟨fun i j => (reach_iff w i j).1 (hall i ?_ j ?_), ⟨⟨0, hpos⟩⟩⟩ <;>
          rw [ixs_eq w, List.mem_range]
        · exact i.2
        · exact j.2
      · rintro ⟨hpre, -⟩ i hi j hj
        rw [ixs_eq w, List.mem_range] at hi hj
        exact (reach_iff w ⟨i, hi⟩ ⟨j, hj⟩).2 (hpre _ _)
    obtain ⟨b, h1, h2⟩ := hb
    refine ⟨b, h1, h2, h2.trans ?_⟩
    rw [(C137_spectrum hg hL).2.2.2, Nat.card_eq_one_iff_unique]
    have : Nonempty (Fin g.nodes.length) := ⟨⟨0, hpos⟩⟩
    constructor
    · intro hc
      exact ⟨hc.preconnected.subsingleton_connectedComponent, ⟨(tokenGraph g).connectedComponentMk ⟨0, hpos⟩⟩⟩
    · rintro ⟨hs, -⟩
      exact ⟨fun i j => SimpleGraph.ConnectedComponent.eq.1 (Subsingleton.elim _ _)⟩

/-- C137: weighted matrices and matrices of degrees are not available. -/
theorem C137_unavailable (g : AG K) (directed : Bool) : g.adjacency directed true = .error .assertion ∧
    g.laplacian directed true = .error .assertion ∧ g.degreeMatrix = .error (.custom "NameError") := ⟨rfl, rfl, rfl⟩

/-- A set of nodes that no edge leaves holds all of a closed walk that enters it. -/
theorem closed_trap {l : List Nat} {S : Nat → Prop} (hS : ∀ p ∈ closedWalk l, S p.1 → S p.2) {a : Nat} (ha : a ∈ l) (hSa : S a) :
    ∀ b ∈ l, S b := by
  obtain ⟨k, hk, rfl⟩ := List.getElem_of_mem ha
  have step : ∀ m, S (l[(k + m) % l.length]'(Nat.mod_lt _ (by omega))) := by
    intro m
    induction m with
    | zero => simpa [Nat.mod_eq_of_lt hk] using hSa
    | succ m ih =>
      have hlt : (k + m) % l.length < l.length := Nat.mod_lt _ (by omega)
      have hmem : (l[(k + m) % l.length], l[(k + (m + 1)) % l.length]'(Nat.mod_lt _ (by omega))) ∈ closedWalk l := by
        unfold closedWalk
        rw [List.mem_iff_getElem]
        refine ⟨(k + m) % l.length, by simpa using hlt, ?_⟩
        rw [List.getElem_zip, List.getElem_rotate]
        congr 2
        rw [Nat.mod_add_mod, Nat.add_assoc]
      exact hS _ hmem ih
  intro b hb
  obtain ⟨m, hm, rfl⟩ := List.getElem_of_mem hb
  have := step (l.length - k + m)
  have he : (k + (l.length - k + m)) % l.length = m := by
    rw [show k + (l.length - k + m) = l.length + m by omega, Nat.add_mod_left, Nat.mod_eq_of_lt hm]
  simpa only [he] using this

/-- Going along a list of nodes, from the first node to the last. -/
def Steps (R : Nat → Nat → Prop) : Nat → List Nat → Nat → Prop
  | s, [], t => s = t
  | s, x :: l, t => R s x ∧ Steps R x l t

theorem Steps.append {R : Nat → Nat → Prop} {l m : List Nat} : ∀ {s t u}, Steps R s l t → Steps R t m u → Steps R s (l ++ m) u := by
  induction l with
  | nil => intro s t u h1 h2; cases h1; exact h2
  | cons x l ih => intro s t u h1 h2; exact ⟨h1.1, ih h1.2 h2⟩

theorem Steps.of_reach {R : Nat → Nat → Prop} {s t : Nat} (h : Relation.ReflTransGen R s t) : ∃ l, Steps R s l t := by
  induction h with
  | refl => exact ⟨[], rfl⟩
  | @tail b c _ h ih =>
    obtain ⟨l, hl⟩ := ih
    exact ⟨l ++ [c], hl.append ⟨h, rfl⟩⟩

theorem Steps.zip {R : Nat → Nat → Prop} {l : List Nat} : ∀ {x t y}, Steps R x l t → R t y → ∀ p ∈ (x :: l).zip (l ++ [y]), R p.1 p.2 := by
  induction l with
  | nil =>
    intro x t y h1 h2 p hp
    cases h1
    obtain rfl : p = (x, y) := by simpa using hp
    exact h2
  | cons z l ih =>
    intro x t y h1 h2 p hp
    rcases List.mem_cons.1 (show p ∈ (x, z) :: (z :: l).zip (l ++ [y]) from hp) with rfl | hp
    · exact h1.1
    · exact ih h1.2 h2 p hp

theorem Steps.of_zip {R : Nat → Nat → Prop} {l : List Nat} : ∀ {x y}, (∀ p ∈ (x :: l).zip (l ++ [y]), R p.1 p.2) → Steps R x (l ++ [y]) y := by
  induction l with
  | nil => intro x y h; exact ⟨h (x, y) (by simp), rfl⟩
  | cons z l ih =>
    intro x y h
    exact ⟨h (x, z) (by simp), ih fun p hp => h p (List.mem_cons_of_mem _ hp)⟩

theorem closedWalk_cons (x : Nat) (l : List Nat) : closedWalk (x :: l) = (x :: l).zip (l ++ [x]) := by
  unfold closedWalk
  rw [show (x :: l).rotate 1 = l ++ [x] by simp [List.rotate_cons_succ]]

/-- C137: what holds instead: if every token can be reached from every other along the directions of the edges, any cycles are
subcycles of a single cycle, which may visit a token more than once. -/
theorem C137_cycles_partial (g : AG K) (hconn : ∀ x ∈ g.nodes, ∀ y ∈ g.nodes, Relation.ReflTransGen (fun a b => edgesFrom g a b ≠ []) x y)
    {cs : List (List Nat)} (hcs : ∀ c ∈ cs, (∀ n ∈ c, n ∈ g.nodes) ∧ ∀ p ∈ closedWalk c, edgesFrom g p.1 p.2 ≠ []) :
    ∃ l : List Nat, (∀ p ∈ closedWalk l, edgesFrom g p.1 p.2 ≠ []) ∧ ∀ c ∈ cs, Cycle.CyclicSub c l := by
  have key : ∀ s ∈ g.nodes, ∃ m, Steps (fun a b => edgesFrom g a b ≠ []) s m s ∧ ∀ c ∈ cs, c.Sublist m := by
    intro s hs
    induction cs with
    | nil => exact ⟨[], rfl, by simp⟩
    | cons c cs ih =>
      obtain ⟨m, h1, h2⟩ := ih fun c hc => hcs c (List.mem_cons_of_mem _ hc)
      obtain ⟨hin, hw⟩ := hcs c List.mem_cons_self
      cases c with
      | nil =>
        refine ⟨m, h1, ?_⟩
        intro c hc
        rcases List.mem_cons.1 hc with rfl | hc
        · exact List.nil_sublist _
        · exact h2 c hc
      | cons a c =>
        have ha : a ∈ g.nodes := hin a List.mem_cons_self
        obtain ⟨p, hp⟩ := Steps.of_reach (hconn s hs a ha)
        obtain ⟨q, hq⟩ := Steps.of_reach (hconn a ha s hs)
        rw [closedWalk_cons] at hw
        have hr := Steps.of_zip (R := fun a b => edgesFrom g a b ≠ []) hw
        refine ⟨p ++ ((c ++ [a]) ++ ((c ++ [a]) ++ (q ++ m))), hp.append (hr.append (hr.append (hq.append h1))), ?_⟩
        intro d hd
        rcases List.mem_cons.1 hd with rfl | hd
        · refine (?_ : (a :: c).Sublist ((c ++ [a]) ++ ((c ++ [a]) ++ (q ++ m)))).trans (List.sublist_append_right _ _)
          refine (?_ : ([a] ++ c).Sublist _)
          refine List.Sublist.append (List.sublist_append_right _ _) ?_
          rw [List.append_assoc]
          exact List.sublist_append_left _ _
        · exact ((((h2 d hd).trans (List.sublist_append_right _ _)).trans (List.sublist_append_right _ _)).trans
            (List.sublist_append_right _ _)).trans (List.sublist_append_right _ _)
  by_cases hn : g.nodes = []
  · refine ⟨[], by simp [closedWalk], ?_⟩
    intro c hc
    have : c = [] := List.eq_nil_iff_forall_not_mem.2 fun n hn' => by
      have := (hcs c hc).1 n hn'
      rw [hn] at this
      cases this
    subst this
    exact ⟨0, List.nil_sublist _⟩
  · obtain ⟨s, hs⟩ := List.exists_mem_of_ne_nil _ hn
    obtain ⟨m, h1, h2⟩ := key s hs
    refine ⟨m, ?_, fun c hc => ⟨0, by rw [List.rotate_zero]; exact h2 c hc⟩⟩
    cases m with
    | nil => simp [closedWalk]
    | cons x l =>
      rw [closedWalk_cons]
      exact Steps.zip (R := fun a b => edgesFrom g a b ≠ []) h1.2 h1.1

end

/-! ## Examples -/

/-- Two tokens with edges in both directions, and a third one likewise: every token reaches every other. -/
example : (∀ p ∈ closedWalk [0, 1, 2], edgesFrom exGraph p.1 p.2 ≠ []) ∧ exGraph.nodes = [0, 1, 2] ∧
    ∃ l : List Nat, (∀ p ∈ closedWalk l, edgesFrom exGraph p.1 p.2 ≠ []) ∧ ∀ c ∈ [[0, 1, 2], [2, 0, 1]], Cycle.CyclicSub c l := by
  have hw : ∀ p ∈ closedWalk [0, 1, 2], edgesFrom exGraph p.1 p.2 ≠ [] := by decide +kernel
  have hn : exGraph.nodes = [0, 1, 2] := by decide +kernel
  refine ⟨hw, hn, C137_cycles_partial exGraph ?_ ?_⟩
  · rw [hn]
    have a := Relation.ReflTransGen.single (r := fun a b => edgesFrom exGraph a b ≠ []) (hw (0, 1) (by decide))
    have b := Relation.ReflTransGen.single (r := fun a b => edgesFrom exGraph a b ≠ []) (hw (1, 2) (by decide))
    have c := Relation.ReflTransGen.single (r := fun a b => edgesFrom exGraph a b ≠ []) (hw (2, 0) (by decide))
    intro x hx y hy
    simp only [List.mem_cons, List.not_mem_nil, or_false] at hx hy
    rcases hx with rfl | rfl | rfl <;> rcases hy with rfl | rfl | rfl
    exacts [.refl, a, a.trans b, b.trans c, .refl, b, c, c.trans a, .refl]
  · rw [hn]
    decide +kernel

/-- Two cycles, joined by an edge from the one to the other. -/
def twoCycles : AG ℚ :=
  let g := (AG.empty.addEdge "A".toList 1 "B".toList 1).2
  let g := (g.addEdge "B".toList 1 "A".toList 1).2
  let g := (g.addEdge "B".toList 1 "C".toList 1).2
  let g := (g.addEdge "C".toList 1 "D".toList 1).2
  (g.addEdge "D".toList 1 "C".toList 1).2

theorem twoCycles_reach : Reach false twoCycles :=
  .addEdge _ _ _ _ _ _ (.addEdge _ _ _ _ _ _ (.addEdge _ _ _ _ _ _ (.addEdge _ _ _ _ _ _ (.addEdge _ _ _ _ _ _ .empty))))

example : twoCycles.adjacency = .ok [[0, 1, 0, 0], [1, 0, 1, 0], [0, 0, 0, 1], [0, 0, 1, 0]] ∧
    twoCycles.adjacency false = .ok [[0, 1, 0, 0], [1, 0, 1, 0], [0, 1, 0, 1], [0, 0, 1, 0]] ∧
    twoCycles.laplacian = .ok [[1, -1, 0, 0], [-1, 2, -1, 0], [0, -1, 2, -1], [0, 0, -1, 1]] ∧
    twoCycles.laplacian true = .ok [[1, -1, 0, 0], [-1, 2, -1, 0], [0, 0, 1, -1], [0, 0, -1, 1]] := by decide +kernel

example : (AG.empty : AG ℚ).isWeaklyConnected = .error (.custom "NetworkXPointlessConcept") :=
  (C137_connected (g := (AG.empty : AG ℚ)) (dup := false) .empty rfl).1 rfl

open Classical in
theorem twoCycles_connected : twoCycles.isWeaklyConnected = .ok true := by
  have w := C45_consistent twoCycles_reach
  have h01 : ∀ i j : Nat, (i, j) ∈ [(0, 1), (1, 0), (1, 2), (2, 1), (2, 3), (3, 2)] → twoCycles.joined false i j = true := by
    intro i j h
    have := show ∀ p ∈ [(0, 1), (1, 0), (1, 2), (2, 1), (2, 3), (3, 2)], twoCycles.joined false p.1 p.2 = true by decide +kernel
    exact this _ h
  unfold AG.isWeaklyConnected
  rw [if_neg (by decide +kernel)]
  congr 1
  rw [decide_eq_true_iff]
  have up : ∀ i ∈ [0, 1, 2, 3], Relation.ReflTransGen (fun a b => twoCycles.joined false a b = true) 0 i ∧
      Relation.ReflTransGen (fun a b => twoCycles.joined false a b = true) i 0 := by
    have a01 := Relation.ReflTransGen.single (r := fun a b => twoCycles.joined false a b = true) (h01 0 1 (by simp))
    have a10 := Relation.ReflTransGen.single (r := fun a b => twoCycles.joined false a b = true) (h01 1 0 (by simp))
    have a12 := Relation.ReflTransGen.single (r := fun a b => twoCycles.joined false a b = true) (h01 1 2 (by simp))
    have a21 := Relation.ReflTransGen.single (r := fun a b => twoCycles.joined false a b = true) (h01 2 1 (by simp))
    have a23 := Relation.ReflTransGen.single (r := fun a b => twoCycles.joined false a b = true) (h01 2 3 (by simp))
    have a32 := Relation.ReflTransGen.single (r := fun a b => twoCycles.joined false a b = true) (h01 3 2 (by simp))
    intro i hi
    simp only [List.mem_cons, List.not_mem_nil, or_false] at hi
    rcases hi with rfl | rfl | rfl | rfl
    · exact ⟨.refl, .refl⟩
    · exact ⟨a01, a10⟩
    · exact ⟨a01.trans a12, a21.trans a10⟩
    · exact ⟨(a01.trans a12).trans a23, a32.trans (a21.trans a10)⟩
  have hix : twoCycles.ixs = [0, 1, 2, 3] := by decide +kernel
  rw [hix]
  intro i hi j hj
  exact (up i hi).2.trans (up j hj).1

/-- C137: contrary to the documentation, in a weakly connected graph the cycles need not be subcycles of a single cycle: here are two
cycles of which no closed walk along the edges contains both. -/
theorem C137_cycles_violated : ∃ (g : AG ℚ) (c d : List Nat), Reach false g ∧ g.isWeaklyConnected = .ok true ∧
    (∀ p ∈ closedWalk c, edgesFrom g p.1 p.2 ≠ []) ∧ (∀ p ∈ closedWalk d, edgesFrom g p.1 p.2 ≠ []) ∧
    ∀ l : List Nat, (∀ p ∈ closedWalk l, edgesFrom g p.1 p.2 ≠ []) → ¬ (Cycle.CyclicSub c l ∧ Cycle.CyclicSub d l) := by
  refine ⟨twoCycles, [0, 1], [2, 3], twoCycles_reach, twoCycles_connected, by decide +kernel, by decide +kernel, ?_⟩
  rintro l hl ⟨⟨j, hc⟩, ⟨k, hd⟩⟩
  have h0 : 0 ∈ l := List.mem_rotate.1 (hc.subset (by simp))
  have h2 : 2 ∈ l := List.mem_rotate.1 (hd.subset (by simp))
  have hout : ∀ e ∈ twoCycles.edgeList, 2 ≤ e.nodeIn → 2 ≤ e.nodeOut := by decide +kernel
  have := closed_trap (S := fun n => 2 ≤ n) (l := l) (fun p hp h => by
    obtain ⟨e, he⟩ := List.exists_mem_of_ne_nil _ (hl p hp)
    obtain ⟨he, h1, h2⟩ := mem_edgesFrom.1 he
    rw [← h2]
    exact hout e he (by rw [h1]; exact h)) h2 (le_refl 2) 0 h0
  omega

end Arb

end Carbon
