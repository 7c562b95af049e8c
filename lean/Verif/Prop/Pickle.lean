import Verif.Tools.Pickle
import Verif.Prop.SdkBase

/-!
# C174: optimizers in files
-/

namespace Carbon.Prop.Pickle

open Carbon Carbon.Pickle

variable {α : Type}

/-- C174: an optimizer that was saved without a time is read back, by its class or one that it derives from. -/
theorem C174_roundtrip (fs : Files α) (inst : α → Bool) (obj : α) (base : Str) (clock : ℤ) :
    unpickle (pickle fs obj base clock false) inst base = if inst obj then .ok obj else .error .assertion := by
  simp [unpickle, pickle, nameFor]

/-- C174: an optimizer that was saved with the time is read back under the name with the time. -/
theorem C174_stamped (fs : Files α) (inst : α → Bool) (obj : α) (base : Str) (clock : ℤ) (h : inst obj = true) :
    unpickle (pickle fs obj base clock) inst (base ++ '.' :: Sdk.intStr clock) = .ok obj := by
  simp [unpickle, pickle, nameFor, h]

/-- C174: but not under the name that it was saved with, which reads what was there before, if anything. The time is added by default. -/
theorem C174_default_violated (fs : Files α) (inst : α → Bool) (obj : α) (base : Str) (clock : ℤ) :
    unpickle (pickle fs obj base clock) inst base = unpickle fs inst base := by
  have h : base ++ ext ≠ nameFor base true clock := by
    intro h
    have := congrArg List.length h
    simp [nameFor] at this
    omega
  unfold unpickle pickle
  rw [if_neg h]

theorem stamp_inj {a b : ℤ} (h : Sdk.intStr a = Sdk.intStr b) : a = b := by
  have := Sdk.pyInt_intStr a
  rw [h, Sdk.pyInt_intStr] at this
  exact (Option.some.inj this).symm

/-- C174: optimizers that are saved at different times under one name are all kept. -/
theorem C174_kept (fs : Files α) (inst : α → Bool) (a b : α) (base : Str) (s t : ℤ) (h : s ≠ t) (ha : inst a = true) :
    unpickle (pickle (pickle fs a base s) b base t) inst (base ++ '.' :: Sdk.intStr s) = .ok a := by
  have hn : base ++ '.' :: Sdk.intStr s ++ ext ≠ nameFor base true t := by
    intro he
    simp only [nameFor, if_true, List.append_assoc, List.cons_append] at he
    have he := List.append_cancel_left he
    simp only [List.cons.injEq, true_and] at he
    exact h (stamp_inj (List.append_cancel_right he))
  unfold unpickle
  rw [pickle, if_neg hn]
  simp [pickle, nameFor, ha]

/-- C174: of two that are saved within a hundredth of a second the first is lost. -/
theorem C174_same_time_violated (fs : Files α) (a b : α) (base : Str) (t : ℤ) : pickle (pickle fs a base t) b base t = pickle fs b base t := by
  funext n
  unfold pickle
  split <;> rfl

/-- C174: saving changes no other file. -/
theorem C174_others (fs : Files α) (obj : α) (base n : Str) (clock : ℤ) (addts : Bool) (h : n ≠ nameFor base addts clock) :
    pickle fs obj base clock addts n = fs n := if_neg h

example : unpickle (pickle (fun _ => none) 7 "delme".toList 167000000000) (fun _ => true) "delme".toList = .error (.custom "FileNotFoundError") ∧
    unpickle (pickle (fun _ => none) 7 "delme".toList 167000000000 false) (fun _ => true) "delme".toList = .ok 7 :=
  ⟨by rw [C174_default_violated]; rfl, by rw [C174_roundtrip]; rfl⟩

end Carbon.Prop.Pickle
