import Verif.Prop.DeletedCosts
import Verif.Witness.AddingFast

/-! An instance of `C179_between_partial`: of two strategies, the one that was added first is deleted. -/

namespace Carbon.Witness

open Sim

/-- With the fast router, 4 ETH are sold, or the sale is refused, whether another strategy was added before and deleted after or not. -/
example : (∃ given paid, Succeeds (run (emptyBook .fast) ([realStrat].map Op.add)) false { tkn := "ETH".toList, amt := 4 } "ETH".toList
      (some given) (some paid) ∧
    Succeeds ((run ((emptyBook .fast).addStrategy lesserStrat).2 ([realStrat].map Op.add)).deleteOrder 0).2 false { tkn := "ETH".toList, amt := 4 }
      "ETH".toList (some given) (some paid)) ∨
    (Refused (run (emptyBook .fast) ([realStrat].map Op.add)) false { tkn := "ETH".toList, amt := 4 } ∧
      Refused ((run ((emptyBook .fast).addStrategy lesserStrat).2 ([realStrat].map Op.add)).deleteOrder 0).2 false
        { tkn := "ETH".toList, amt := 4 }) := by
  refine (C179_between_partial (emptyBook .fast) rfl (new_healthy (book_new .fast)).1 (fun k o hk => by cases hk) lesserStrat 0 1
    (by rw [lesser_added]) (two_sensible _ (by simp)) [realStrat] (fun c hc => two_accepted .fast c (by simp_all)) (fun c hc => two_sensible c (by simp_all))
    0 (Or.inl rfl) { tkn := "ETH".toList, amt := 4 } (by norm_num) rfl (fun _ => rfl) rfl rfl rfl ethusdc usdceth rfl eth_rev).1 (by decide +kernel) ?_
  have e : run (emptyBook .fast) ([realStrat].map Op.add) = realBook .fast := by
    show ((emptyBook .fast).addStrategy realStrat).2 = _
    rw [book_added]
  rw [e]
  intro hn
  have hm : askOrder ∈ suppliers (realBook .fast) ethusdc usdceth "ETH".toList none := by
    unfold suppliers
    rw [List.mem_filter, decide_eq_true_iff]
    exact ⟨by simp [realBook], Or.inl rfl, rfl, rfl, by norm_num [askOrder], fun l hl => by cases hl⟩
  rw [hn] at hm
  cases hm

end Carbon.Witness
