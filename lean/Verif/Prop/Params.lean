import Verif.Tools.Params
import Verif.Prop.CpcContainer

/-!
# Parameter objects (C51)
-/

namespace Carbon

namespace Params

variable {V : Type}

/-- The defaults as seen from outside: none if none have been set. -/
def known (p : Params V) : List (Str × V) := p.defaults.getD []

/-- The operations of a parameter object. -/
inductive Op (V : Type) where
  | setItem (k : Str) (v : V)
  | set (k : Str) (v : V) (allowupdate : Bool)
  | add (kw : List (Str × V))
  | setDefault (kw : List (Str × V))
  | getDefault (k : Str) (raiseonerror : Bool)
  | defaults
  | getItem (k : Str)
  | getAttr (k : Str)

/-- The object after an operation. -/
def Op.apply (p : Params V) : Op V → Params V
  | .setItem k v => (p.setItem k v).2
  | .set k v a => (p.set k v a).2
  | .add kw => (p.add kw).2
  | .setDefault kw => p.setDefault kw
  | .getDefault k r => (p.getDefault k r).2
  | .defaults => p.getDefaults.2
  | .getItem k => (p.getItem k).2
  | .getAttr k => (p.getAttr k).2

/-- The object after a sequence of operations. -/
def run (p : Params V) (ops : List (Op V)) : Params V := ops.foldl Op.apply p

theorem ensure_params (p : Params V) : p.ensureDefaults.params = p.params ∧ p.ensureDefaults.known = p.known := by
  unfold ensureDefaults setDefault known
  cases h : p.defaults <;> simp [h]

theorem getDefault_params (p : Params V) (k : Str) (r : Bool) :
    (p.getDefault k r).2.params = p.params ∧ (p.getDefault k r).2.known = p.known := by
  unfold getDefault
  dsimp only
  split
  · exact ensure_params p
  · split <;> exact ensure_params p

theorem getDefault_eq (p : Params V) (k : Str) (r : Bool) :
    (p.getDefault k r).1 = match dictGet p.known k with
      | some v => .ok (some v)
      | none => if r then .error .key else .ok none := by
  have := (ensure_params p).2
  unfold getDefault known at *
  dsimp only
  rw [this]
  cases dictGet (p.defaults.getD []) k with
  | some v => rfl
  | none => cases r <;> rfl

/-- C51: reading by item gives the explicit value, else the default, else `None`; it never raises. -/
theorem C51_item (p : Params V) (k : Str) : (p.getItem k).1 = .ok ((dictGet p.params k).or (dictGet p.known k)) := by
  unfold getItem
  cases h : dictGet p.params k with
  | some v => rfl
  | none =>
    dsimp only
    rw [getDefault_eq]
    cases dictGet p.known k <;> rfl

/-- C51: reading by attribute gives the explicit value, else the default, else it raises `KeyError`. This is for names that do not begin
with an underscore and are not attributes of the class. -/
theorem C51_attribute_partial (p : Params V) (k : Str) (hr : k ∉ reserved) (hu : k.head? ≠ some '_') :
    (p.getAttr k).1 = match (dictGet p.params k).or (dictGet p.known k) with
      | some v => .ok (.value (some v))
      | none => .error .key := by
  unfold getAttr
  rw [if_neg hr, if_neg hu]
  cases h : dictGet p.params k with
  | some v => rfl
  | none =>
    dsimp only
    rw [getDefault_eq]
    cases dictGet p.known k <;> rfl

/-- C51: reading changes neither the parameters nor the defaults. -/
theorem C51_reading (p : Params V) (k : Str) (r : Bool) :
    ∀ op ∈ [Op.getItem k, .getAttr k, .getDefault k r, .defaults], (op.apply p).params = p.params ∧ (op.apply p).known = p.known := by
  intro op hop
  simp only [List.mem_cons, List.not_mem_nil, or_false] at hop
  rcases hop with rfl | rfl | rfl | rfl
  · unfold Op.apply getItem
    dsimp only
    split
    · exact ⟨rfl, rfl⟩
    · exact getDefault_params p k false
  · unfold Op.apply getAttr
    dsimp only
    split
    · exact ⟨rfl, rfl⟩
    · split
      · exact ⟨rfl, rfl⟩
      · split
        · exact ⟨rfl, rfl⟩
        · exact getDefault_params p k true
  · exact getDefault_params p k r
  · exact ensure_params p

/-- C51: assignment to an existing name raises `ValueError` and changes nothing; assignment to a new name sets it and changes nothing
else. -/
theorem C51_assignment (p : Params V) (k : Str) (v : V) :
    (∀ w, dictGet p.params k = some w → p.setItem k v = (.error .value, p)) ∧
      (dictGet p.params k = none → (p.setItem k v).1 = .ok () ∧ (p.setItem k v).2.defaults = p.defaults ∧
        ∀ k', dictGet (p.setItem k v).2.params k' = if k = k' then some v else dictGet p.params k') := by
  constructor
  · intro w h
    unfold setItem set
    rw [if_pos ⟨rfl, by rw [h]; rfl⟩]
  · intro h
    unfold setItem set
    rw [if_neg (by rw [h]; simp)]
    exact ⟨rfl, rfl, fun k' => dictGet_set _ _ _ _⟩

/-- C51: a new object has the given values, and for other names the given defaults. -/
theorem C51_construct (d : List (Str × V)) (defaults : List (Str × V)) (k : Str) :
    ∃ p, construct (.dict d) (some defaults) = .ok p ∧
      (p.getItem k).1 = .ok ((dictGet d k).or (dictGet defaults k)) := by
  refine ⟨_, rfl, ?_⟩
  unfold withDefaults getItem
  cases defaults with
  | nil =>
    show (match dictGet d k with
      | some v => ((.ok (some v) : Py (Option V)), new d)
      | none => (new d).getDefault k false).1 = _
    cases dictGet d k with
    | some v => rfl
    | none => rfl
  | cons kv l =>
    show (match dictGet d k with
      | some v => ((.ok (some v) : Py (Option V)), ({ new d with defaults := some (kv :: l) } : Params V))
      | none => ({ new d with defaults := some (kv :: l) } : Params V).getDefault k false).1 = _
    cases dictGet d k with
    | some v => rfl
    | none =>
      show (({ new d with defaults := some (kv :: l) } : Params V).getDefault k false).1 = .ok (dictGet (kv :: l) k)
      unfold getDefault ensureDefaults
      dsimp only
      split
      · rename_i v hv
        rw [show dictGet (kv :: l) k = some v from hv]
      · rename_i hv
        rw [show dictGet (kv :: l) k = none from hv]
        rfl

/-- C51: `set` replaces an existing value unless told otherwise. -/
theorem C51_set (p : Params V) (k : Str) (v : V) : (p.set k v).1 = .ok () ∧ (p.set k v).2.defaults = p.defaults ∧
    ∀ k', dictGet (p.set k v).2.params k' = if k = k' then some v else dictGet p.params k' := by
  unfold set
  rw [if_neg (by simp)]
  exact ⟨rfl, rfl, fun k' => dictGet_set _ _ _ _⟩

theorem setItem_keeps {p : Params V} {k : Str} {v : V} (h : dictGet p.params k = some v) (k' : Str) (v' : V) :
    dictGet (p.setItem k' v').2.params k = some v := by
  cases h' : dictGet p.params k' with
  | some w => rw [(C51_assignment p k' v').1 w h']; exact h
  | none =>
    rw [((C51_assignment p k' v').2 h').2.2, if_neg, h]
    rintro rfl
    rw [h] at h'
    cases h'

theorem add_keeps {p : Params V} {k : Str} {v : V} (h : dictGet p.params k = some v) (kw : List (Str × V)) :
    dictGet (p.add kw).2.params k = some v := by
  induction kw generalizing p with
  | nil => exact h
  | cons kv kw ih =>
    obtain ⟨k', v'⟩ := kv
    have := setItem_keeps h k' v'
    unfold add
    cases hs : p.setItem k' v' with
    | mk r p' =>
      rw [hs] at this
      cases r with
      | error e => exact this
      | ok u => exact ih this

/-- C51: over any sequence of operations without a forced `set`, an explicit value stays as it is, and reading the name by item gives it,
whatever defaults have been set. -/
theorem C51_stays (p : Params V) (k : Str) (v : V) (h : dictGet p.params k = some v) (ops : List (Op V))
    (hops : ∀ op ∈ ops, ∀ k' v', op ≠ .set k' v' true) :
    dictGet (p.run ops).params k = some v ∧ ((p.run ops).getItem k).1 = .ok (some v) := by
  have key : dictGet (p.run ops).params k = some v := by
    unfold run
    induction ops generalizing p with
    | nil => exact h
    | cons op ops ih =>
      rw [List.foldl_cons]
      refine ih _ ?_ fun o ho => hops o (List.mem_cons_of_mem _ ho)
      cases op with
      | setItem k' v' => exact setItem_keeps h k' v'
      | set k' v' a =>
        cases a with
        | true => exact absurd rfl (hops _ (by simp) k' v')
        | false => exact setItem_keeps h k' v'
      | add kw => exact add_keeps h kw
      | setDefault kw =>
        show dictGet (p.setDefault kw).params k = some v
        unfold setDefault
        split <;> exact h
      | getDefault k' r => rw [(C51_reading p k' r _ (by simp)).1]; exact h
      | defaults => rw [(C51_reading p k false _ (by simp)).1]; exact h
      | getItem k' => rw [(C51_reading p k' false _ (by simp)).1]; exact h
      | getAttr k' => rw [(C51_reading p k' false _ (by simp)).1]; exact h
  refine ⟨key, ?_⟩
  rw [C51_item, key]
  rfl

theorem dictGet_fold (kw : List (Str × V)) (hk : (kw.map Prod.fst).Nodup) (d : List (Str × V)) (k : Str) :
    dictGet (kw.foldl (fun d kv => dictSet d kv.1 kv.2) d) k = (dictGet kw k).or (dictGet d k) := by
  induction kw generalizing d with
  | nil => rfl
  | cons kv kw ih =>
    obtain ⟨a, b⟩ := kv
    rw [List.map_cons, List.nodup_cons] at hk
    rw [List.foldl_cons, ih hk.2, dictGet_set]
    by_cases h : a = k
    · subst h
      have : dictGet kw a = none := by
        cases e : dictGet kw a with
        | none => rfl
        | some v =>
          exfalso
          apply hk.1
          clear ih hk
          induction kw with
          | nil => cases e
          | cons kv kw ih =>
            obtain ⟨c, w⟩ := kv
            unfold dictGet at e
            split at e
            · rename_i hc; simp [hc]
            · exact List.mem_cons_of_mem _ (ih e)
      rw [this]
      simp [dictGet]
    · simp [dictGet, h]

/-- C51: once defaults exist, setting defaults makes all of them available, keeps the other ones, and leaves the parameters alone. -/
theorem C51_set_default_partial (p : Params V) (hp : p.defaults ≠ none) (kw : List (Str × V)) (hk : (kw.map Prod.fst).Nodup) (k : Str) :
    (p.setDefault kw).params = p.params ∧
      ((p.setDefault kw).getItem k).1 = .ok ((dictGet p.params k).or ((dictGet kw k).or (dictGet p.known k))) := by
  obtain ⟨d, hd⟩ := Option.ne_none_iff_exists'.1 hp
  have e : p.setDefault kw = ⟨p.params, some (kw.foldl (fun d kv => dictSet d kv.1 kv.2) d)⟩ := by
    unfold setDefault; rw [hd]
  rw [e]
  refine ⟨rfl, ?_⟩
  rw [C51_item]
  have : known p = d := by unfold known; rw [hd]; rfl
  rw [this]
  show Except.ok ((dictGet p.params k).or (dictGet (kw.foldl _ d) k)) = _
  rw [dictGet_fold kw hk]

/-- C51 fails: the first `set_default` of an object without defaults is ignored. -/
theorem C51_set_default_violated (p : Params V) (hp : p.defaults = none) (kw : List (Str × V)) (k : Str) (hk : dictGet p.params k = none) :
    ((p.setDefault kw).getItem k).1 = .ok none := by
  have e : p.setDefault kw = ⟨p.params, some []⟩ := by unfold setDefault; rw [hp]
  rw [C51_item, e]
  show Except.ok ((dictGet p.params k).or none) = _
  rw [hk]
  rfl

/-- C51 fails: whether a default is stored depends on whether an unknown name has been read before. -/
theorem C51_read_before_violated : ∃ (k : Str) (v : ℕ), let p : Params ℕ := new []
    ((p.setDefault [(k, v)]).getItem k).1 = .ok none ∧ (((p.getItem k).2.setDefault [(k, v)]).getItem k).1 = .ok (some v) :=
  ⟨"c".toList, 3, by decide, by decide⟩

/-- C51 fails: `add` with a name that exists raises after it has stored the names before it. -/
theorem C51_add_violated : ∃ (p : Params ℕ) (kw : List (Str × ℕ)), (p.add kw).1 = .error .value ∧ (p.add kw).2 ≠ p :=
  ⟨new [("b".toList, 2)], [("a".toList, 1), ("b".toList, 3)], by decide, by decide⟩

/-- C51 fails: constructing from a parameter object forgets its defaults. -/
theorem C51_replicate_violated : ∃ (p : Params ℕ) (k : Str), (p.getItem k).1 = .ok (some 3) ∧
    (construct (.obj p)).map (fun q => (q.getItem k).1) = .ok (.ok none) :=
  ⟨⟨[], some [("c".toList, 3)]⟩, "c".toList, by decide, by decide⟩

/-- C51 fails: a parameter named like a method cannot be read as attribute. -/
theorem C51_attribute_violated : ((new [("set".toList, 1)] : Params ℕ).getAttr "set".toList).1 = .ok .own ∧
    ((new [("_x".toList, 1)] : Params ℕ).getAttr "_x".toList).1 = .error .attr := by decide

example : (((new [("a".toList, 1), ("b".toList, 2)] : Params ℕ).run [.getItem "c".toList, .setDefault [("b".toList, 20), ("c".toList, 3)],
    .setItem "b".toList 7]).getItem "b".toList).1 = .ok (some 2) := by decide

example : (((new [("a".toList, 1), ("b".toList, 2)] : Params ℕ).run [.getItem "c".toList, .setDefault [("b".toList, 20), ("c".toList, 3)],
    .setItem "b".toList 7]).getAttr "c".toList).1 = .ok (.value (some 3)) := by decide

end Params

end Carbon
