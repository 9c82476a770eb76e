import Verif.StretchLaw
import Mathlib.Probability.ProductMeasure
import Mathlib.MeasureTheory.Function.Floor

/-! # A sequence of stretch moves of several walkers

The walkers are independent, each with the target distribution; the draws are an infinite sequence of
independent triples of uniform numbers. -/

namespace Albatross

open MeasureTheory Set

open scoped ENNReal

variable {d N : Nat}

/-- The uniform distribution on `[0, 1)`. -/
noncomputable def unif01 : Measure ℝ := volume.restrict (Ico 0 1)

instance : IsProbabilityMeasure unif01 := ⟨by
  rw [unif01, Measure.restrict_apply_univ, Real.volume_Ico]
  simp⟩

/-- The three draws of a move: partner, factor, acceptance. -/
abbrev Draws := ℝ × ℝ × ℝ

/-- An infinite sequence of independent triples of independent uniform numbers. -/
noncomputable def uniformDraws : Measure (ℕ → Draws) :=
  Measure.infinitePi fun _ => unif01.prod (unif01.prod unif01)

instance : IsProbabilityMeasure uniformDraws := by
  unfold uniformDraws
  infer_instance

/-- The density `f`, normalised. -/
noncomputable def targetLaw (f : (Fin d → ℝ) → ℝ) : Measure (Fin d → ℝ) :=
  (∫⁻ x, ENNReal.ofReal (f x))⁻¹ • volume.withDensity fun x => ENNReal.ofReal (f x)

theorem targetLaw_prob {f : (Fin d → ℝ) → ℝ} (h0 : ∫⁻ x, ENNReal.ofReal (f x) ≠ 0)
    (h1 : ∫⁻ x, ENNReal.ofReal (f x) ≠ ∞) : IsProbabilityMeasure (targetLaw f) := ⟨by
  rw [targetLaw, Measure.smul_apply, withDensity_apply _ MeasurableSet.univ, Measure.restrict_univ, smul_eq_mul]
  exact ENNReal.inv_mul_cancel h0 h1⟩

/-- The walker that moves, and the choice of its partner. -/
structure Move (N : Nat) where
  walker : Fin N
  partner : ℝ → Fin N

/-- One move of one walker. -/
noncomputable def moveOne (f : (Fin d → ℝ) → ℝ) (a : ℝ) (m : Move N) (t : Draws) (X : Fin N → Fin d → ℝ) :
    Fin N → Fin d → ℝ :=
  Function.update X m.walker
    (walk f a (X (m.partner t.1)) (X m.walker) (Int.fract t.2.1) (Int.fract t.2.2))

/-- Moves one after the other, each with its own draws. -/
noncomputable def runMoves (f : (Fin d → ℝ) → ℝ) (a : ℝ) : List (Move N) → (ℕ → Draws) → (Fin N → Fin d → ℝ) →
    Fin N → Fin d → ℝ
  | [], _, X => X
  | m :: l, D, X => runMoves f a l (fun i => D (i + 1)) (moveOne f a m (D 0) X)

/-! ## Measurability -/

theorem measurable_nudgedY {α : Type*} [MeasurableSpace α] {z : α → ℝ} {c x : α → Fin d → ℝ} (hz : Measurable z)
    (hc : Measurable c) (hx : Measurable x) : Measurable fun q => nudgedY (z q) (c q) (x q) := by
  refine measurable_pi_lambda _ fun i => ?_
  have hci : Measurable fun q => c q i := (measurable_pi_apply i).comp hc
  have hxi : Measurable fun q => x q i := (measurable_pi_apply i).comp hx
  unfold nudgedY
  exact Measurable.ite (measurableSet_eq_fun (hxi.sub hci) measurable_const)
    (hci.add (hz.mul measurable_const)) (hci.add (hz.mul (hxi.sub hci)))

theorem measurable_walk {f : (Fin d → ℝ) → ℝ} (hf : Measurable f) (a : ℝ) {α : Type*} [MeasurableSpace α]
    {c x : α → Fin d → ℝ} {p r : α → ℝ} (hc : Measurable c) (hx : Measurable x) (hp : Measurable p)
    (hr : Measurable r) : Measurable fun q => walk f a (c q) (x q) (p q) (r q) := by
  have hz : Measurable fun q => stretchZ a (p q) := by
    unfold stretchZ
    fun_prop
  have hy := measurable_nudgedY hz hc hx
  unfold walk
  exact Measurable.ite (measurableSet_lt hr (((hz.pow_const _).mul (hf.comp hy)).div (hf.comp hx))) hy hx

theorem measurable_moveOne {f : (Fin d → ℝ) → ℝ} (hf : Measurable f) (a : ℝ) {m : Move N}
    (hm : Measurable m.partner) :
    Measurable fun q : Draws × (Fin N → Fin d → ℝ) => moveOne f a m q.1 q.2 := by
  have hpart : Measurable fun q : Draws × (Fin N → Fin d → ℝ) => q.2 (m.partner q.1.1) := by
    have h1 : Measurable fun q : Fin N × (Fin N → Fin d → ℝ) => q.2 q.1 :=
      measurable_from_prod_countable_right fun j => measurable_pi_apply j
    exact h1.comp ((hm.comp (measurable_fst.comp measurable_fst)).prodMk measurable_snd)
  have hw : Measurable fun q : Draws × (Fin N → Fin d → ℝ) =>
      walk f a (q.2 (m.partner q.1.1)) (q.2 m.walker) (Int.fract q.1.2.1) (Int.fract q.1.2.2) :=
    measurable_walk hf a hpart ((measurable_pi_apply _).comp measurable_snd)
      (measurable_fract.comp (measurable_fst.comp (measurable_snd.comp measurable_fst)))
      (measurable_fract.comp (measurable_snd.comp (measurable_snd.comp measurable_fst)))
  refine measurable_pi_lambda _ fun i => ?_
  unfold moveOne
  by_cases h : i = m.walker
  · subst h
    simpa using hw
  · simp only [Function.update_of_ne h]
    exact (measurable_pi_apply i).comp measurable_snd

theorem measurable_runMoves {f : (Fin d → ℝ) → ℝ} (hf : Measurable f) (a : ℝ) : ∀ (l : List (Move N)),
    (∀ m ∈ l, Measurable m.partner) →
    Measurable fun q : (ℕ → Draws) × (Fin N → Fin d → ℝ) => runMoves f a l q.1 q.2 := by
  intro l
  induction l with
  | nil => intro _; exact measurable_snd
  | cons m l ih =>
    intro h
    have h1 := ih fun m' hm' => h m' (List.mem_cons_of_mem _ hm')
    have h2 := measurable_moveOne (d := d) hf a (h m (by simp))
    have h3 : Measurable fun q : (ℕ → Draws) × (Fin N → Fin d → ℝ) => (fun i => q.1 (i + 1) : ℕ → Draws) :=
      measurable_pi_lambda _ fun i => (measurable_pi_apply (i + 1)).comp measurable_fst
    have h0 : Measurable fun q : (ℕ → Draws) × (Fin N → Fin d → ℝ) => q.1 0 :=
      (measurable_pi_apply 0).comp measurable_fst
    have h4 : Measurable fun q : (ℕ → Draws) × (Fin N → Fin d → ℝ) => moveOne f a m (q.1 0) q.2 :=
      h2.comp (h0.prodMk measurable_snd)
    exact h1.comp (h3.prodMk h4)

/-! ## The draws -/

/-- The first triple and the rest of the sequence are independent; the rest has the same law. -/
theorem lintegral_uniformDraws {G : Draws → (ℕ → Draws) → ℝ≥0∞}
    (hG : Measurable fun q : Draws × (ℕ → Draws) => G q.1 q.2) :
    ∫⁻ D, G (D 0) (fun i => D (i + 1)) ∂uniformDraws =
      ∫⁻ t, ∫⁻ D, G t D ∂uniformDraws ∂(unif01.prod (unif01.prod unif01)) := by
  set τ : Measure Draws := unif01.prod (unif01.prod unif01) with hτ
  set cons : Draws × (ℕ → Draws) → ℕ → Draws := fun q i => Nat.casesOn i q.1 q.2 with hcons
  have hcm : Measurable cons := by
    refine measurable_pi_lambda _ fun i => ?_
    cases i with
    | zero => exact measurable_fst
    | succ i => exact (measurable_pi_apply i).comp measurable_snd
  have hlaw : Measure.map cons (τ.prod uniformDraws) = uniformDraws := by
    refine Measure.eq_infinitePi _ fun s t ht => ?_
    obtain ⟨n, hn⟩ : ∃ n, s ⊆ Finset.range (n + 1) :=
      ⟨s.sup id, fun i hi => Finset.mem_range.2 (Nat.lt_succ_of_le (Finset.le_sup (f := id) hi))⟩
    set t' : ℕ → Set Draws := fun i => if i ∈ s then t i else univ with ht'
    have htm : ∀ i, MeasurableSet (t' i) := by
      intro i
      simp only [ht']
      split
      · exact ht i
      · exact MeasurableSet.univ
    have e1 : Set.pi (s : Set ℕ) t = Set.pi (Finset.range (n + 1) : Set ℕ) t' := by
      ext D
      simp only [Set.mem_pi, Finset.mem_coe, ht']
      constructor
      · intro h i _
        split
        · exact h i ‹_›
        · trivial
      · intro h i hi
        simpa [hi] using h i (hn hi)
    have e2 : ∏ i ∈ s, τ (t i) = ∏ i ∈ Finset.range (n + 1), τ (t' i) := by
      rw [← Finset.prod_subset hn (f := fun i => τ (t' i))]
      · exact Finset.prod_congr rfl fun i hi => by simp [ht', hi]
      · intro i _ hi
        simp [ht', hi]
    rw [e1, e2, Measure.map_apply hcm (MeasurableSet.pi (Finset.countable_toSet _) fun i _ => htm i)]
    have e3 : cons ⁻¹' Set.pi (Finset.range (n + 1) : Set ℕ) t' =
        t' 0 ×ˢ Set.pi (Finset.range n : Set ℕ) (fun i => t' (i + 1)) := by
      ext ⟨x, D⟩
      simp only [mem_preimage, Set.mem_pi, Finset.mem_coe, Finset.mem_range, mem_prod, hcons]
      constructor
      · intro h
        exact ⟨h 0 (by omega), fun i hi => h (i + 1) (by omega)⟩
      · rintro ⟨h1, h2⟩ i hi
        cases i with
        | zero => exact h1
        | succ i => exact h2 i (by omega)
    rw [e3, Measure.prod_prod, Finset.prod_range_succ', mul_comm, uniformDraws,
      Measure.infinitePi_pi _ fun i _ => htm (i + 1)]
  have hz : Measurable fun D : ℕ → Draws => D 0 := measurable_pi_apply 0
  have hsucc : Measurable fun D : ℕ → Draws => (fun i => D (i + 1) : ℕ → Draws) :=
    measurable_pi_lambda _ fun i => measurable_pi_apply (i + 1)
  have hh : Measurable fun D : ℕ → Draws => G (D 0) (fun i => D (i + 1)) :=
    hG.comp (hz.prodMk hsucc)
  conv_lhs => rw [← hlaw]
  rw [lintegral_map hh hcm]
  exact lintegral_prod (fun q : Draws × (ℕ → Draws) => G q.1 q.2) hG.aemeasurable

/-! ## Invariance -/

/-- A move with a fixed partner, under the normalised density. -/
theorem walk_targetLaw {f : (Fin d → ℝ) → ℝ} (hf : Measurable f) (h0 : ∀ x, 0 ≤ f x) {a : ℝ} (ha : 1 < a)
    (c : Fin d → ℝ) {F : (Fin d → ℝ) → ℝ≥0∞} (hF : Measurable F) :
    ∫⁻ x, ∫⁻ q, F (walk f a c x (Int.fract q.1) (Int.fract q.2)) ∂(unif01.prod unif01) ∂(targetLaw f) =
      ∫⁻ x, F x ∂(targetLaw f) := by
  have hm : Measurable fun q : (Fin d → ℝ) × ℝ × ℝ =>
      F (walk f a c q.1 (Int.fract q.2.1) (Int.fract q.2.2)) :=
    hF.comp (measurable_walk hf a measurable_const measurable_fst
      (measurable_fract.comp (measurable_fst.comp measurable_snd))
      (measurable_fract.comp (measurable_snd.comp measurable_snd)))
  have hin : ∀ x, ∫⁻ q, F (walk f a c x (Int.fract q.1) (Int.fract q.2)) ∂(unif01.prod unif01) =
      ∫⁻ p in Ico (0 : ℝ) 1, ∫⁻ r in Ico (0 : ℝ) 1, F (walk f a c x p r) := by
    intro x
    have hmq : Measurable fun q : ℝ × ℝ => F (walk f a c x (Int.fract q.1) (Int.fract q.2)) :=
      hm.comp (measurable_const.prodMk measurable_id)
    rw [lintegral_prod _ hmq.aemeasurable]
    unfold unif01
    refine setLIntegral_congr_fun measurableSet_Ico fun p hp => ?_
    refine setLIntegral_congr_fun measurableSet_Ico fun r hr => ?_
    simp only
    rw [Int.fract_eq_self.2 ⟨hp.1, hp.2⟩, Int.fract_eq_self.2 ⟨hr.1, hr.2⟩]
  have hmx : Measurable fun x => ∫⁻ q, F (walk f a c x (Int.fract q.1) (Int.fract q.2)) ∂(unif01.prod unif01) :=
    Measurable.lintegral_prod_right' hm
  rw [targetLaw, lintegral_smul_measure, lintegral_smul_measure,
    lintegral_withDensity_eq_lintegral_mul _ hf.ennreal_ofReal hmx,
    lintegral_withDensity_eq_lintegral_mul _ hf.ennreal_ofReal hF]
  congr 1
  have := walk_invariant hf h0 ha c hF
  simp only [Pi.mul_apply, hin]
  exact this

/-- One move of one walker. -/
theorem moveOne_invariant {f : (Fin d → ℝ) → ℝ} (hf : Measurable f) (h0 : ∀ x, 0 ≤ f x)
    (hprob : IsProbabilityMeasure (targetLaw f)) {a : ℝ} (ha : 1 < a) {m : Move N} (hm : Measurable m.partner)
    (hne : ∀ u, m.partner u ≠ m.walker) {F : (Fin N → Fin d → ℝ) → ℝ≥0∞} (hF : Measurable F) :
    ∫⁻ X, ∫⁻ t, F (moveOne f a m t X) ∂(unif01.prod (unif01.prod unif01))
      ∂(Measure.pi fun _ => targetLaw f) = ∫⁻ X, F X ∂(Measure.pi fun _ => targetLaw f) := by
  have hmv := measurable_moveOne (d := d) hf a hm
  have hFm : Measurable fun q : (Fin N → Fin d → ℝ) × Draws => F (moveOne f a m q.2 q.1) :=
    hF.comp (hmv.comp measurable_swap)
  have e1 : ∀ X, ∫⁻ t, F (moveOne f a m t X) ∂(unif01.prod (unif01.prod unif01)) =
      ∫⁻ u, ∫⁻ q, F (moveOne f a m (u, q) X) ∂(unif01.prod unif01) ∂unif01 := by
    intro X
    exact lintegral_prod _ (hFm.comp (measurable_const.prodMk measurable_id)).aemeasurable
  simp_rw [e1]
  have hFm2 : Measurable fun w : ((Fin N → Fin d → ℝ) × ℝ) × ℝ × ℝ => F (moveOne f a m (w.1.2, w.2) w.1.1) :=
    hFm.comp ((measurable_fst.comp measurable_fst).prodMk
      ((measurable_snd.comp measurable_fst).prodMk measurable_snd))
  have hFm3 : Measurable fun w : (Fin N → Fin d → ℝ) × ℝ =>
      ∫⁻ q, F (moveOne f a m (w.2, q) w.1) ∂(unif01.prod unif01) := Measurable.lintegral_prod_right' hFm2
  rw [lintegral_lintegral_swap hFm3.aemeasurable]
  have e2 : ∀ u, ∫⁻ X, ∫⁻ q, F (moveOne f a m (u, q) X) ∂(unif01.prod unif01)
      ∂(Measure.pi fun _ => targetLaw f) = ∫⁻ X, F X ∂(Measure.pi fun _ => targetLaw f) := by
    intro u
    refine lintegral_eq_of_lmarginal_eq {m.walker} (hFm3.comp (measurable_id.prodMk measurable_const)) hF ?_
    funext X
    rw [lmarginal_singleton, lmarginal_singleton]
    beta_reduce
    have hup : Measurable fun x : Fin d → ℝ => F (Function.update X m.walker x) :=
      hF.comp (measurable_update X)
    rw [← walk_targetLaw hf h0 ha (X (m.partner u)) hup]
    refine lintegral_congr fun x => ?_
    refine lintegral_congr fun q => ?_
    simp only [moveOne, Function.update_idem, Function.update_self, Function.update_of_ne (hne u)]
  simp_rw [e2]
  rw [lintegral_const, measure_univ, mul_one]

/-- **A sequence of moves leaves independent walkers with the target distribution.** -/
theorem runMoves_invariant {f : (Fin d → ℝ) → ℝ} (hf : Measurable f) (h0 : ∀ x, 0 ≤ f x)
    (hprob : IsProbabilityMeasure (targetLaw f)) {a : ℝ} (ha : 1 < a) : ∀ (l : List (Move N)),
    (∀ m ∈ l, Measurable m.partner ∧ ∀ u, m.partner u ≠ m.walker) →
    ∀ {F : (Fin N → Fin d → ℝ) → ℝ≥0∞}, Measurable F →
    ∫⁻ X, ∫⁻ D, F (runMoves f a l D X) ∂uniformDraws ∂(Measure.pi fun _ => targetLaw f) =
      ∫⁻ X, F X ∂(Measure.pi fun _ => targetLaw f) := by
  intro l
  induction l with
  | nil =>
    intro _ F hF
    simp [runMoves]
  | cons m l ih =>
    intro h F hF
    obtain ⟨hm, hne⟩ := h m (by simp)
    have hl := fun m' hm' => h m' (List.mem_cons_of_mem _ hm')
    have hrun := measurable_runMoves (d := d) hf a l fun m' hm' => (hl m' hm').1
    have hmv := measurable_moveOne (d := d) hf a hm
    have hG : Measurable fun X => ∫⁻ D, F (runMoves f a l D X) ∂uniformDraws :=
      Measurable.lintegral_prod_right' (f := fun q : (Fin N → Fin d → ℝ) × (ℕ → Draws) => F (runMoves f a l q.2 q.1))
        (hF.comp (hrun.comp measurable_swap))
    have e : ∀ X, ∫⁻ D, F (runMoves f a (m :: l) D X) ∂uniformDraws =
        ∫⁻ t, (fun X => ∫⁻ D, F (runMoves f a l D X) ∂uniformDraws) (moveOne f a m t X)
          ∂(unif01.prod (unif01.prod unif01)) := by
      intro X
      exact lintegral_uniformDraws (G := fun t D => F (runMoves f a l D (moveOne f a m t X)))
        (hF.comp (hrun.comp (measurable_snd.prodMk
          (hmv.comp (measurable_fst.prodMk measurable_const)))))
    simp_rw [e]
    rw [moveOne_invariant hf h0 hprob ha hm hne hG]
    exact ih hl hF

/-- The same as a law. -/
theorem runMoves_law {f : (Fin d → ℝ) → ℝ} (hf : Measurable f) (h0 : ∀ x, 0 ≤ f x)
    (hprob : IsProbabilityMeasure (targetLaw f)) {a : ℝ} (ha : 1 < a) (l : List (Move N))
    (h : ∀ m ∈ l, Measurable m.partner ∧ ∀ u, m.partner u ≠ m.walker) :
    Measure.map (fun q : (ℕ → Draws) × (Fin N → Fin d → ℝ) => runMoves f a l q.1 q.2)
      (uniformDraws.prod (Measure.pi fun _ => targetLaw f)) = Measure.pi fun _ => targetLaw f := by
  have hrun := measurable_runMoves (d := d) hf a l fun m hm => (h m hm).1
  refine Measure.ext_of_lintegral _ fun F hF => ?_
  have hFr : Measurable fun q : (ℕ → Draws) × (Fin N → Fin d → ℝ) => F (runMoves f a l q.1 q.2) := hF.comp hrun
  rw [lintegral_map hF hrun, lintegral_prod_symm _ hFr.aemeasurable]
  exact runMoves_invariant hf h0 hprob ha l h hF

end Albatross
