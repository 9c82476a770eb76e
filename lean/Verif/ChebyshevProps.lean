import Verif.Chebyshev
import Verif.SamplerProps
import Mathlib.Analysis.SpecialFunctions.Trigonometric.Chebyshev.Basic

/-! # Properties of the Chebyshev polynomials (C55) -/

open Polynomial

namespace Albatross

theorem arr_step (x : List ℝ) (f g : ℝ → ℝ) :
    arrSub (arrMul (arrScale 2 x) (x.map f)) (x.map g) = x.map fun t => 2 * t * f t - g t := by
  simp [arrSub, arrMul, arrScale, List.zipWith_map_left, List.zipWith_map_right, List.zipWith_self]

/-- A family of functions with the three term recurrence of the Chebyshev polynomials. -/
def IsRecurrent (p : Nat → ℝ → ℝ) : Prop := ∀ n t, p (n + 2) t = 2 * t * p (n + 1) t - p n t

theorem chebyshevLoop_eq {p : Nat → ℝ → ℝ} (hp : IsRecurrent p) (x : List ℝ) (count k : Nat) :
    chebyshevLoop x count (x.map (p (k + 1))) (x.map (p (k + 1))) (x.map (p k)) =
      x.map (p (k + 1 + count)) := by
  induction count generalizing k with
  | zero => rfl
  | succ m ih =>
    rw [chebyshevLoop, arr_step]
    have : (x.map fun t => 2 * t * p (k + 1) t - p k t) = x.map (p (k + 1 + 1)) := by
      apply List.map_congr_left; intro t _; rw [hp]
    simp only [this]
    rw [ih]; congr 2; ring

theorem recurrent_T : IsRecurrent fun n t => (Chebyshev.T ℝ n).eval t := by
  intro n t
  have := Chebyshev.T_add_two ℝ (n : ℤ)
  push_cast
  rw [this]
  simp

theorem recurrent_U : IsRecurrent fun n t => (Chebyshev.U ℝ n).eval t := by
  intro n t
  have := Chebyshev.U_add_two ℝ (n : ℤ)
  push_cast
  rw [this]
  simp

theorem chebyshev0_T (x : List ℝ) : chebyshev0 x = x.map fun t => (Chebyshev.T ℝ ((0 : Nat) : ℤ)).eval t := by
  simp [chebyshev0, List.map_const']

theorem chebyshev0_U (x : List ℝ) : chebyshev0 x = x.map fun t => (Chebyshev.U ℝ ((0 : Nat) : ℤ)).eval t := by
  simp [chebyshev0, List.map_const']

theorem chebyshevT1_eq (x : List ℝ) : chebyshevT1 x = x.map fun t => (Chebyshev.T ℝ ((1 : Nat) : ℤ)).eval t := by
  simp [chebyshevT1]

theorem chebyshevU1_eq (x : List ℝ) : chebyshevU1 x = x.map fun t => (Chebyshev.U ℝ ((1 : Nat) : ℤ)).eval t := by
  simp [chebyshevU1, arrScale]

theorem chebyshevT2_eq (x : List ℝ) : chebyshevT2 x = x.map fun t => (Chebyshev.T ℝ ((2 : Nat) : ℤ)).eval t := by
  have h : chebyshev0 x = x.map fun _ => 1 := by simp [chebyshev0, List.map_const']
  have := arr_step x id (fun _ => 1)
  rw [List.map_id] at this
  rw [chebyshevT2, h, this]
  apply List.map_congr_left
  intro t _
  have := recurrent_T 0 t
  simp at this ⊢
  rw [this]

theorem chebyshevU2_eq (x : List ℝ) : chebyshevU2 x = x.map fun t => (Chebyshev.U ℝ ((2 : Nat) : ℤ)).eval t := by
  have h : chebyshev0 x = x.map fun _ => 1 := by simp [chebyshev0, List.map_const']
  rw [chebyshevU2, h]
  simp only [arrSub, arrMul, arrScale, List.zipWith_map_left, List.zipWith_map_right, List.zipWith_self]
  apply List.map_congr_left
  intro t _
  have := recurrent_U 0 t
  simp at this ⊢
  rw [this]; ring

/-- C55: `chebyshev_t(n, x)` holds the values of the Chebyshev polynomial of the first kind. -/
theorem C55_first_kind (b : Build) (n : Nat) (x : List ℝ) :
    chebyshevT b n x = .ok (x.map fun t => (Chebyshev.T ℝ n).eval t) := by
  rcases n with - | - | - | n
  · simp [chebyshevT, chebyshev0_T, except_ok_bind, except_pure]
  · simp [chebyshevT, chebyshevT1_eq, except_ok_bind, except_pure]
  · simp [chebyshevT, chebyshevT2_eq, except_ok_bind, except_pure]
  · have h := chebyshevLoop_eq recurrent_T x (n + 1) 1
    have h0 : (((n + 1 + 1 + 1 : Nat) : Int) - 2).toNat = n + 1 := by omega
    have c0 : ¬ ((n + 1 + 1 + 1 : Nat) : Int) = 0 := by omega
    have c1 : ¬ ((n + 1 + 1 + 1 : Nat) : Int) = 1 := by omega
    have c2 : ¬ ((n + 1 + 1 + 1 : Nat) : Int) = 2 := by omega
    have c3 : (0 : Int) ≤ ((n + 1 + 1 + 1 : Nat) : Int) := by omega
    simp only [chebyshevT, c3, decide_true, albatrossAssert_true, except_ok_bind, if_neg c0, if_neg c1,
      if_neg c2, h0, except_pure, chebyshevT2_eq, chebyshevT1_eq]
    rw [h, show 1 + 1 + (n + 1) = n + 1 + 1 + 1 by ring]

/-- C55: `chebyshev_u(n, x)` holds the values of the Chebyshev polynomial of the second kind. -/
theorem C55_second_kind (b : Build) (n : Nat) (x : List ℝ) :
    chebyshevU b n x = .ok (x.map fun t => (Chebyshev.U ℝ n).eval t) := by
  rcases n with - | - | - | n
  · simp [chebyshevU, chebyshev0_U, except_ok_bind, except_pure]
  · simp [chebyshevU, chebyshevU1_eq, except_ok_bind, except_pure]
  · simp [chebyshevU, chebyshevU2_eq, except_ok_bind, except_pure]
  · have h := chebyshevLoop_eq recurrent_U x (n + 1) 1
    have h0 : (((n + 1 + 1 + 1 : Nat) : Int) - 2).toNat = n + 1 := by omega
    have c0 : ¬ ((n + 1 + 1 + 1 : Nat) : Int) = 0 := by omega
    have c1 : ¬ ((n + 1 + 1 + 1 : Nat) : Int) = 1 := by omega
    have c2 : ¬ ((n + 1 + 1 + 1 : Nat) : Int) = 2 := by omega
    have c3 : (0 : Int) ≤ ((n + 1 + 1 + 1 : Nat) : Int) := by omega
    simp only [chebyshevU, c3, decide_true, albatrossAssert_true, except_ok_bind, if_neg c0, if_neg c1,
      if_neg c2, h0, except_pure, chebyshevU2_eq, chebyshevU1_eq]
    rw [h, show 1 + 1 + (n + 1) = n + 1 + 1 + 1 by ring]

/-- C55: `T_n(cos θ) = cos nθ`, entry by entry. -/
theorem C55_cos (b : Build) (n : Nat) (θ : List ℝ) :
    chebyshevT b n (θ.map Real.cos) = .ok (θ.map fun t => Real.cos (n * t)) := by
  rw [C55_first_kind, List.map_map]
  congr 1
  apply List.map_congr_left
  intro t _
  simp

/-- C55: `U_n(cos θ) sin θ = sin (n+1)θ`, entry by entry. -/
theorem C55_sin (b : Build) (n : Nat) (θ : List ℝ) :
    ∃ u, chebyshevU b n (θ.map Real.cos) = .ok u ∧
      List.zipWith (fun u t => u * Real.sin t) u θ = θ.map fun t => Real.sin ((n + 1) * t) := by
  refine ⟨_, C55_second_kind b n _, ?_⟩
  rw [List.map_map, List.zipWith_map_left, List.zipWith_self]
  apply List.map_congr_left
  intro t _
  simp

theorem phiLoop {p : Nat → ℝ → ℝ} (hp : IsRecurrent p) (x : List ℝ) (count k : Nat) (hk : 2 ≤ k)
    (phi : List (List ℝ)) (hlen : phi.length = k + count)
    (hphi : ∀ j < k, phi[j]? = some (x.map (p j))) :
    ∃ out, (List.range' k count).foldlM (chebyshevPhiStep x) phi = .ok out ∧ out.length = k + count ∧
      ∀ j < k + count, out[j]? = some (x.map (p j)) := by
  induction count generalizing k phi with
  | zero => exact ⟨phi, rfl, hlen, hphi⟩
  | succ m ih =>
    obtain ⟨j, rfl⟩ : ∃ j, k = j + 2 := ⟨k - 2, by omega⟩
    have h1 : vecGet phi (j + 2 - 1) = .ok (x.map (p (j + 1))) := vecGet_ok.2 (hphi _ (by omega))
    have h2 : vecGet phi (j + 2 - 2) = .ok (x.map (p j)) := vecGet_ok.2 (hphi _ (by omega))
    have h3 : (x.map fun t => 2 * t * p (j + 1) t - p j t) = x.map (p (j + 2)) := by
      apply List.map_congr_left; intro t _; rw [hp]
    have hlt : j + 2 < phi.length := by omega
    have hstep : chebyshevPhiStep x phi (j + 2) = .ok (phi.set (j + 2) (x.map (p (j + 2)))) := by
      simp only [chebyshevPhiStep, h1, h2, except_ok_bind, arr_step, h3]
      exact vecSet_ok.2 ⟨hlt, rfl⟩
    obtain ⟨out, o1, o2, o3⟩ := ih (j + 2 + 1) (by omega) (phi.set (j + 2) (x.map (p (j + 2))))
      (by simp [hlen]; omega) (fun i hi => by
        rw [List.getElem?_set]
        by_cases e : j + 2 = i
        · subst e; simp [hlt]
        · rw [if_neg e]; exact hphi i (by omega))
    refine ⟨out, ?_, by omega, fun i hi => o3 i (by omega)⟩
    rw [List.range'_succ, List.foldlM_cons, hstep, except_ok_bind, o1]

theorem phi_eq {p : Nat → ℝ → ℝ} (hp : IsRecurrent p) (first second : List ℝ → List ℝ) (x : List ℝ)
    (h0 : chebyshev0 x = x.map (p 0)) (h1 : first x = x.map (p 1)) (h2 : second x = x.map (p 2))
    (b : Build) (uninit : Nat → List ℝ) (n : Nat) :
    ∃ phi, chebyshevPhi first second b uninit n x = .ok phi ∧ phi.length = n + 1 ∧
      ∀ k ≤ n, phi[k]? = some (x.map (p k)) := by
  rcases n with - | - | n
  · refine ⟨[x.map (p 0)], ?_, by simp, ?_⟩
    · simp [chebyshevPhi, except_ok_bind, except_pure, vecSet, h0]
    · intro k hk
      obtain rfl : k = 0 := by omega
      simp
  · refine ⟨[x.map (p 0), x.map (p 1)], ?_, by simp, ?_⟩
    · simp [chebyshevPhi, except_ok_bind, except_pure, vecSet, h0, h1, List.range_succ]
    · intro k hk
      obtain rfl | rfl : k = 0 ∨ k = 1 := by omega
      · simp
      · simp
  · have c0 : (0 : Int) ≤ ((n + 1 + 1 : Nat) : Int) := by omega
    have c1 : (0 : Int) < ((n + 1 + 1 : Nat) : Int) := by omega
    have c2 : (1 : Int) < ((n + 1 + 1 : Nat) : Int) := by omega
    have hr : (((n + 1 + 1 : Nat) : Int) + 1).toNat = n + 1 + 1 + 1 := by omega
    have hcount : (((n + 1 + 1 : Nat) : Int) - 2).toNat = n := by omega
    obtain ⟨out, o1, o2, o3⟩ := phiLoop hp x n 3 (by omega)
      (((((List.range (n + 1 + 1 + 1)).map uninit).set 0 (x.map (p 0))).set 1 (x.map (p 1))).set 2
        (x.map (p 2))) (by simp; omega) (fun k hk => by
        obtain rfl | rfl | rfl : k = 0 ∨ k = 1 ∨ k = 2 := by omega
        · simp
        · simp
        · simp)
    refine ⟨out, ?_, by omega, fun k hk => o3 k (by omega)⟩
    rw [← o1]
    simp only [chebyshevPhi, c0, decide_true, albatrossAssert_true, except_ok_bind, hr, hcount, h0, h1, h2,
      if_pos c1, if_pos c2]
    simp [vecSet, except_ok_bind]

/-- C55: column `k` of the basis matrix of the first kind is the polynomial of degree `k`. -/
theorem C55_basis_first_kind (b : Build) (uninit : Nat → List ℝ) (n : Nat) (x : List ℝ) :
    ∃ phi, chebyshevTPhi b uninit n x = .ok phi ∧ phi.length = n + 1 ∧
      ∀ k ≤ n, phi[k]? = some (x.map fun t => (Chebyshev.T ℝ k).eval t) :=
  phi_eq recurrent_T _ _ x (chebyshev0_T x) (chebyshevT1_eq x) (chebyshevT2_eq x) b uninit n

/-- C55: column `k` of the basis matrix of the second kind is the polynomial of degree `k`. -/
theorem C55_basis_second_kind (b : Build) (uninit : Nat → List ℝ) (n : Nat) (x : List ℝ) :
    ∃ phi, chebyshevUPhi b uninit n x = .ok phi ∧ phi.length = n + 1 ∧
      ∀ k ≤ n, phi[k]? = some (x.map fun t => (Chebyshev.U ℝ k).eval t) :=
  phi_eq recurrent_U _ _ x (chebyshev0_U x) (chebyshevU1_eq x) (chebyshevU2_eq x) b uninit n

/-- C55, negative degrees: a debug build stops; with `NDEBUG` the polynomial of degree two is returned and
the basis matrix is written out of range. -/
theorem C55_negative_degree (n : Int) (hn : n < 0) (x : List ℝ) (uninit : Nat → List ℝ) :
    chebyshevT .debug n x = .error .assertFail ∧ chebyshevU .debug n x = .error .assertFail ∧
    chebyshevT .ndebug n x = .ok (x.map fun t => (Chebyshev.T ℝ 2).eval t) ∧
    chebyshevU .ndebug n x = .ok (x.map fun t => (Chebyshev.U ℝ 2).eval t) ∧
    chebyshevTPhi .debug uninit n x = .error .assertFail ∧
    chebyshevTPhi .ndebug uninit n x = .error .ub := by
  have c : ¬ (0 : Int) ≤ n := by omega
  have c0 : ¬ n = 0 := by omega
  have c1 : ¬ n = 1 := by omega
  have c2 : ¬ n = 2 := by omega
  have hc : (n - 2).toNat = 0 := by omega
  have hr : (n + 1).toNat = 0 := by omega
  have ht := chebyshevT2_eq x
  have hu := chebyshevU2_eq x
  push_cast at ht hu
  refine ⟨?_, ?_, ?_, ?_, ?_, ?_⟩
  · simp [chebyshevT, c, albatrossAssert]
  · simp [chebyshevU, c, albatrossAssert]
  · simp [chebyshevT, c, albatrossAssert, c0, c1, c2, hc, chebyshevLoop, ht]
  · simp [chebyshevU, c, albatrossAssert, c0, c1, c2, hc, chebyshevLoop, hu]
  · simp [chebyshevTPhi, chebyshevPhi, c, albatrossAssert]
  · simp [chebyshevTPhi, chebyshevPhi, c, albatrossAssert, hr, vecSet]

end Albatross
