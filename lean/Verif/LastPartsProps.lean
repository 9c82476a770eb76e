import Verif.RansacModelProps
import Verif.RandomMatrixProps
import Verif.TemperatureExampleProps

/-! # Parts of C95, C99 and C130 that seeded errors showed to be missing -/

namespace Albatross

/-- C95: `ransac_success` is true of exactly the return code that is printed as success. -/
theorem C95_success (b : Build) (code : RansacCode) :
    ransacSuccess code = true ↔ ransacCodeName b code.value = .ok "success" := by
  cases code <;> cases b <;> simp [ransacSuccess, RansacCode.value, ransacCodeName, except_pure]

/-- C99: a sparse matrix made of triplets: an empty list is zero, and each triplet is added to its entry and to no other,
also if there is one at the same position. -/
theorem C99_triplets (i j : Nat) : fromTriplets [] i j = 0 ∧ ∀ (t : Nat × Nat × ℝ) (triplets : List (Nat × Nat × ℝ)),
    fromTriplets (t :: triplets) i j = fromTriplets triplets i j + if t.1 = i ∧ t.2.1 = j then t.2.2 else 0 := by
  refine ⟨rfl, fun t triplets => ?_⟩
  by_cases h : t.1 = i ∧ t.2.1 = j
  · rw [fromTriplets, List.filter_cons_of_pos (by simpa using h), List.map_cons, List.sum_cons, if_pos h, add_comm]
    rfl
  · rw [fromTriplets, List.filter_cons_of_neg (by simpa using h), if_neg h, add_zero]
    rfl

/-- C130: the model as it is constructed holds valid parameters; the values of the source. -/
theorem C130_constructed :
    temperatureParams temperatureModel = some ⟨1000, 3.5 / 300, 0.09, 1.5, 3.5, 2, 2.5, 15000⟩ ∧
    paramsAreValid temperatureModel.getParams = true := by
  constructor
  · have : temperatureParams temperatureModel = some ⟨1000, 7 / 2 / 300, 9 / 100, 3 / 2, 7 / 2, 2, 5 / 2, 15000⟩ := rfl
    rw [this]
    norm_num
  · show paramsAreValid [("elevation_scaling_center", ⟨.fin 1000, .uniform (.fin 0) (.fin 5000)⟩),
      ("elevation_scaling_factor", ⟨.fin (7 / 2 / 300), .positive⟩), ("exponential_length_scale", ⟨.fin (9 / 100), .positive⟩),
      ("sigma_constant", ⟨.fin (3 / 2), .nonNegative⟩), ("sigma_exponential", ⟨.fin (7 / 2), .nonNegative⟩),
      ("sigma_independent_noise", ⟨.fin 2, .positive⟩), ("sigma_squared_exponential", ⟨.fin (5 / 2), .nonNegative⟩),
      ("squared_exponential_length_scale", ⟨.fin 15000, .positive⟩)] = true
    have he : Prior.epsilon ≤ 1 / 10000 := by unfold Prior.epsilon; norm_num
    simp only [paramsAreValid, Parameter.isValid, Prior.lower, Prior.upper]
    norm_num
    refine ⟨?_, ?_, ?_, ?_⟩ <;> linarith

end Albatross
