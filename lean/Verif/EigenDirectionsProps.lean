import Verif.EigenDirections
import Verif.PrettyParamsProps
import Mathlib.Analysis.Matrix.Spectrum
import Mathlib.Data.List.Sort

/-! # Printed eigen directions: C103 -/

namespace Albatross

open Matrix

/-! ## What is assumed of Eigen and of `std::sort` -/

/-- A strict weak ordering. -/
def StrictWeak {α : Type} (r : α → α → Prop) : Prop :=
  (∀ a, ¬ r a a) ∧ (∀ a b c, r a b → r b c → r a c) ∧ ∀ a b c, ¬ r a b → ¬ r b c → ¬ r a c

/-- `s` is `l` in the order of `r`; equivalent elements may come in any order. -/
def IsSorting {α : Type} (r : α → α → Prop) (l s : List α) : Prop := s.Perm l ∧ s.Pairwise fun a b => ¬ r b a

/-- The symmetric matrix with the same lower triangle: all that `SelfAdjointEigenSolver` reads. -/
def lowerSymmetric {n : Nat} (M : Matrix (Fin n) (Fin n) ℝ) : Matrix (Fin n) (Fin n) ℝ :=
  Matrix.of fun i j => if j ≤ i then M i j else M j i

/-- The solver returns orthonormal eigenvectors with their values, and sorting sorts. -/
structure EigenTools.Lawful {n : Nat} (t : EigenTools n) : Prop where
  orthonormal : ∀ M, (t.solve M).2ᵀ * (t.solve M).2 = 1
  eigen : ∀ M, lowerSymmetric M * (t.solve M).2 = (t.solve M).2 * diagonal (t.solve M).1
  pairs : ∀ comp : ℝ → ℝ → Prop, StrictWeak comp → ∀ l,
    IsSorting (fun a b : ℝ × (Fin n → ℝ) => comp a.1 b.1) l (t.sortPairs comp l)
  indices : ∀ comp : Nat → Nat → Prop, StrictWeak comp → ∀ l, IsSorting comp l (t.sortIndices comp l)

theorem exists_sorting {α : Type} (r : α → α → Prop) (h : StrictWeak r) (l : List α) : ∃ s, IsSorting r l s := by
  classical
  induction l with
  | nil => exact ⟨[], List.Perm.refl _, .nil⟩
  | cons a l ih =>
    obtain ⟨s, hp, hs⟩ := ih
    refine ⟨s.filter (fun x => r x a) ++ a :: s.filter (fun x => ¬ r x a), ?_, ?_⟩
    · refine List.perm_middle.trans (List.Perm.cons a (List.Perm.trans ?_ hp))
      have := List.filter_append_perm (fun x => decide (r x a)) s
      simpa using this
    · rw [List.pairwise_append, List.pairwise_cons]
      refine ⟨hs.filter _, ⟨fun x hx => ?_, hs.filter _⟩, fun x hx y hy => ?_⟩
      · have := (List.mem_filter.1 hx).2
        simpa using this
      · have h1 : r x a := by simpa using (List.mem_filter.1 hx).2
        rcases List.mem_cons.1 hy with rfl | hy
        · exact fun h2 => h.1 _ (h.2.1 _ _ _ h1 h2)
        · have h2 : ¬ r y a := by simpa using (List.mem_filter.1 hy).2
          exact fun h3 => h2 (h.2.1 _ _ _ h3 h1)

/-- Such a solver and such sorts exist. -/
theorem eigenTools_exist (n : Nat) : ∃ t : EigenTools n, t.Lawful := by
  classical
  have hsym : ∀ M : Matrix (Fin n) (Fin n) ℝ, (lowerSymmetric M).IsHermitian := by
    intro M
    ext i j
    simp only [conjTranspose_apply, lowerSymmetric, of_apply, star_trivial]
    rcases lt_trichotomy i j with h | h | h
    · rw [if_pos h.le, if_neg (not_le.2 h)]
    · subst h; rfl
    · rw [if_neg (not_le.2 h), if_pos h.le]
  have hsolve : ∀ M : Matrix (Fin n) (Fin n) ℝ, ∃ vv : (Fin n → ℝ) × Matrix (Fin n) (Fin n) ℝ,
      vv.2ᵀ * vv.2 = 1 ∧ lowerSymmetric M * vv.2 = vv.2 * diagonal vv.1 := by
    intro M
    refine ⟨((hsym M).eigenvalues, ((hsym M).eigenvectorUnitary : Matrix (Fin n) (Fin n) ℝ)), ?_, ?_⟩
    · have := Matrix.mem_unitaryGroup_iff'.1 (hsym M).eigenvectorUnitary.2
      rwa [star_eq_conjTranspose, conjTranspose_eq_transpose_of_trivial] at this
    · ext i j
      have := congrFun ((hsym M).mulVec_eigenvectorBasis j) i
      rw [Matrix.mul_apply, Matrix.mul_diagonal]
      simp only [mulVec, dotProduct, Pi.smul_apply, smul_eq_mul] at this
      rw [mul_comm]
      exact this
  choose solve hs1 hs2 using hsolve
  refine ⟨⟨solve, fun comp l => if h : StrictWeak comp then
      (exists_sorting (fun a b : ℝ × (Fin n → ℝ) => comp a.1 b.1)
        ⟨fun a => h.1 _, fun a b c => h.2.1 _ _ _, fun a b c => h.2.2 _ _ _⟩ l).choose else l,
    fun comp l => if h : StrictWeak comp then (exists_sorting comp h l).choose else l⟩, hs1, hs2, ?_, ?_⟩
  · intro comp h l
    simp only [dif_pos h]
    exact (exists_sorting (fun a b : ℝ × (Fin n → ℝ) => comp a.1 b.1)
      ⟨fun a => h.1 _, fun a b c => h.2.1 _ _ _, fun a b c => h.2.2 _ _ _⟩ l).choose_spec
  · intro comp h l
    simp only [dif_pos h]
    exact (exists_sorting comp h l).choose_spec

/-! ## Specification of the text -/

variable {F : Type} {n : Nat}

/-- The text for one direction: its value, then the coefficients above the threshold with their features, largest
first. -/
def IsDirectionText (featureText : F → List Char) (features : Fin n → F) (printIfAbove : ℝ) (p : ℝ × (Fin n → ℝ))
    (t : List Char) : Prop :=
  ∃ idx : List (Fin n), idx.Nodup ∧ (∀ k, k ∈ idx ↔ printIfAbove < |p.2 k|) ∧
    idx.Pairwise (fun j k => |p.2 k| ≤ |p.2 j|) ∧
    t = ['e', 'i', 'g', 'e', 'n', ' ', 'v', 'a', 'l', 'u', 'e', ':', ' '] ++ sciText 7 (.fin p.1) ++ ['\n'] ++
      idx.flatMap fun k => [' ', ' ', ' ', ' '] ++ padLeft 12 (defaultText (.fin (p.2 k))) ++ [' ', ' ', ' '] ++
        featureText (features k) ++ ['\n']

/-- The two lines before the directions. -/
noncomputable def extremesText (lowest highest : ℝ) : List Char :=
  ['M', 'I', 'N', ':', ' '] ++ sciText 7 (.fin lowest) ++ ['\n'] ++ ['M', 'A', 'X', ':', ' '] ++
    sciText 7 (.fin highest) ++ ['\n']

/-! ## Lemmas -/

theorem vecGet_ofFn {α : Type} {n : Nat} (f : Fin n → α) {i : Nat} (h : i < n) (extra : List α) :
    vecGet (List.ofFn f ++ extra) i = .ok (f ⟨i, h⟩) := by
  have hl : i < (List.ofFn f ++ extra).length := by rw [List.length_append, List.length_ofFn]; omega
  rw [vecGet_lt hl, List.getElem_append_left (by rw [List.length_ofFn]; exact h), List.getElem_ofFn]

theorem printCoefs_eq (featureText : F → List Char) (features : Fin n → F) (extra : List F) (thr : ℝ) (v : Fin n → ℝ)
    (idx : List (Fin n)) (s : List Char) :
    printCoefs featureText (List.ofFn features ++ extra) thr (List.ofFn v) (idx.map fun k => k.val) s =
      .ok (s ++ (idx.filter fun k => thr < |v k|).flatMap fun k => [' ', ' ', ' ', ' '] ++
        padLeft 12 (defaultText (.fin (v k))) ++ [' ', ' ', ' '] ++ featureText (features k) ++ ['\n']) := by
  induction idx generalizing s with
  | nil => simp [printCoefs]
  | cons k idx ih =>
    have h1 : vecGet (List.ofFn v) k.val = .ok (v k) := by
      have := vecGet_ofFn v k.2 []
      rwa [List.append_nil] at this
    have h2 : vecGet (List.ofFn features ++ extra) k.val = .ok (features k) := vecGet_ofFn features k.2 extra
    rw [List.map_cons, printCoefs, h1]
    simp only [except_ok_bind]
    by_cases hk : thr < |v k|
    · rw [if_pos hk, h2]
      simp only [except_ok_bind]
      rw [ih, List.filter_cons_of_pos (by simpa using hk), List.flatMap_cons]
      simp only [List.append_assoc]
    · rw [if_neg hk, ih, List.filter_cons_of_neg (by simpa using hk)]

theorem strictWeak_abs (v : List ℝ) : StrictWeak fun ii jj : Nat => |v.getD jj 0| < |v.getD ii 0| :=
  ⟨fun _ => lt_irrefl _, fun _ _ _ h1 h2 => h2.trans h1, fun _ _ _ h1 h2 => not_lt.2 ((not_lt.1 h1).trans (not_lt.1 h2))⟩

theorem finList {l : List Nat} (h : ∀ j ∈ l, j < n) : ∃ idx : List (Fin n), idx.map (fun k => k.val) = l := by
  refine ⟨l.pmap (fun j hj => (⟨j, hj⟩ : Fin n)) h, ?_⟩
  rw [List.map_pmap]
  simp

theorem printDirection_ok (tools : EigenTools n) (ht : tools.Lawful) (featureText : F → List Char)
    (features : Fin n → F) (extra : List F) (thr : ℝ) (pairs : List (ℝ × (Fin n → ℝ))) (s : List Char) (i : Nat)
    (hi : i < pairs.length) :
    ∃ t, printDirection tools featureText (List.ofFn features ++ extra) thr pairs s i = .ok (s ++ t) ∧
      IsDirectionText featureText features thr pairs[i] t := by
  rw [printDirection, vecGet_lt hi]
  simp only [except_ok_bind]
  set v := pairs[i].2 with hv
  obtain ⟨hp, hs⟩ := ht.indices _ (strictWeak_abs (List.ofFn v)) (List.range (List.ofFn v).length)
  set sorted := tools.sortIndices (fun ii jj => |(List.ofFn v).getD jj 0| < |(List.ofFn v).getD ii 0|)
    (List.range (List.ofFn v).length) with hsorted
  have hlt : ∀ j ∈ sorted, j < n := fun j hj => by
    have := hp.mem_iff.1 hj
    rwa [List.mem_range, List.length_ofFn] at this
  obtain ⟨idx, hidx⟩ := finList hlt
  have hget : ∀ k : Fin n, (List.ofFn v).getD k.val 0 = v k := fun k => by
    rw [List.getD_eq_getElem?_getD, List.getElem?_ofFn]
    simp
  have hnd : idx.Nodup := by
    have : (idx.map fun k => k.val).Nodup := by
      rw [hidx]; exact hp.nodup_iff.2 List.nodup_range
    exact List.Nodup.of_map _ this
  have hmem : ∀ k : Fin n, k ∈ idx := fun k => by
    have h1 : k.val ∈ sorted := hp.mem_iff.2 (by rw [List.mem_range, List.length_ofFn]; exact k.2)
    rw [← hidx, List.mem_map] at h1
    obtain ⟨k', hk', h2⟩ := h1
    rwa [← Fin.ext h2]
  have hpw : idx.Pairwise fun j k => |v k| ≤ |v j| := by
    rw [← hidx, List.pairwise_map] at hs
    refine hs.imp fun {j k} h => ?_
    have := not_lt.1 h
    rwa [hget, hget] at this
  rw [← hidx, printCoefs_eq]
  refine ⟨_, by rw [List.append_assoc, List.append_assoc, List.append_assoc], idx.filter fun k => thr < |v k|,
    hnd.filter _, fun k => ?_, hpw.filter _, by simp only [List.append_assoc]; rfl⟩
  rw [List.mem_filter]
  simp [hmem k, hv]

theorem printDirections_ok (tools : EigenTools n) (ht : tools.Lawful) (featureText : F → List Char)
    (features : Fin n → F) (extra : List F) (thr : ℝ) (pairs : List (ℝ × (Fin n → ℝ))) (s : List Char) (count : Nat)
    (hc : count ≤ pairs.length) :
    ∃ ts : List (List Char),
      (List.range count).foldlM (printDirection tools featureText (List.ofFn features ++ extra) thr pairs) s =
        .ok (s ++ ts.flatten) ∧
      List.Forall₂ (IsDirectionText featureText features thr) (pairs.take count) ts := by
  induction count with
  | zero => exact ⟨[], by simp [pure, Except.pure], by simp⟩
  | succ c ih =>
    obtain ⟨ts, h1, h2⟩ := ih (by omega)
    obtain ⟨t, h3, h4⟩ := printDirection_ok tools ht featureText features extra thr pairs (s ++ ts.flatten) c
      (by omega)
    refine ⟨ts ++ [t], ?_, ?_⟩
    · rw [List.range_succ, List.foldlM_append, h1]
      simp only [except_ok_bind, List.foldlM_cons, List.foldlM_nil]
      rw [h3]
      simp [pure, Except.pure, bind, Except.bind]
    · rw [List.take_succ_eq_append_getElem (by omega)]
      exact List.rel_append h2 (.cons h4 .nil)

theorem extremeCoeff_ok (b : Build) (values : Fin n → ℝ) (hn : 0 < n) :
    ∃ lo hi, extremeCoeff b min (List.ofFn values) = .ok lo ∧ extremeCoeff b max (List.ofFn values) = .ok hi ∧
      (∃ i, values i = lo) ∧ (∃ i, values i = hi) ∧ ∀ i, lo ≤ values i ∧ values i ≤ hi := by
  have key : ∀ (pick : ℝ → ℝ → ℝ) (r : ℝ → ℝ → Prop), (∀ x, r x x) → (∀ x y z, r x y → r y z → r x z) →
      (∀ x y, (pick x y = x ∨ pick x y = y) ∧ r (pick x y) x ∧ r (pick x y) y) → ∀ (l : List ℝ) (a : ℝ),
      (l.foldl pick a = a ∨ l.foldl pick a ∈ l) ∧ r (l.foldl pick a) a ∧ ∀ x ∈ l, r (l.foldl pick a) x := by
    intro pick r hr ht hp l
    induction l with
    | nil => intro a; exact ⟨.inl rfl, hr a, by simp⟩
    | cons x l ih =>
      intro a
      obtain ⟨h1, h2, h3⟩ := ih (pick a x)
      rw [List.foldl_cons]
      refine ⟨?_, ht _ _ _ h2 (hp a x).2.1, fun y hy => ?_⟩
      · rcases h1 with h1 | h1
        · rcases (hp a x).1 with h4 | h4
          · exact .inl (h1.trans h4)
          · exact .inr (by rw [h1, h4]; simp)
        · exact .inr (by simp [h1])
      · rcases List.mem_cons.1 hy with rfl | hy
        · exact ht _ _ _ h2 (hp a y).2.2
        · exact h3 y hy
  have hfirst : vecGet (List.ofFn values) 0 = .ok (values ⟨0, hn⟩) := by
    have := vecGet_ofFn values hn []
    rwa [List.append_nil] at this
  have hrun : ∀ pick, extremeCoeff b pick (List.ofFn values) = .ok ((List.ofFn values).foldl pick (values ⟨0, hn⟩)) := by
    intro pick
    have ha : eigenAssert b (decide (0 < (List.ofFn values).length)) = .ok () := by
      rw [List.length_ofFn, decide_eq_true hn]; rfl
    rw [extremeCoeff, ha, hfirst]
    rfl
  have hmin := key min (· ≤ ·) le_refl (fun _ _ _ => le_trans)
    (fun x y => ⟨min_choice x y, min_le_left x y, min_le_right x y⟩) (List.ofFn values) (values ⟨0, hn⟩)
  have hmax := key max (· ≥ ·) (fun x => le_refl x)
    (fun _ _ _ h1 h2 => le_trans h2 h1)
    (fun x y => ⟨max_choice x y, le_max_left x y, le_max_right x y⟩) (List.ofFn values) (values ⟨0, hn⟩)
  have hwit : ∀ z, (z = values ⟨0, hn⟩ ∨ z ∈ List.ofFn values) → ∃ i, values i = z := by
    rintro z (h | h)
    · exact ⟨_, h.symm⟩
    · rw [List.mem_ofFn] at h; exact h
  refine ⟨_, _, hrun min, hrun max, hwit _ hmin.1, hwit _ hmax.1, fun i => ⟨hmin.2.2 _ ?_, hmax.2.2 _ ?_⟩⟩ <;>
    · rw [List.mem_ofFn]; exact ⟨i, rfl⟩

/-! ## The property -/

/-- The printed directions: eigenvectors of length one, at right angles, whose values are the `count` first in the
order of `le`: any other eigenvalue comes after all of them. -/
structure FirstDirections (A : Matrix (Fin n) (Fin n) ℝ) (le : ℝ → ℝ → Prop) (count : Nat)
    (printed : List (ℝ × (Fin n → ℝ))) : Prop where
  length : printed.length = count
  eigen : ∀ p ∈ printed, A *ᵥ p.2 = p.1 • p.2 ∧ p.2 ⬝ᵥ p.2 = 1
  orthogonal : printed.Pairwise fun p q => p.2 ⬝ᵥ q.2 = 0
  sorted : printed.Pairwise fun p q => le p.1 q.1
  first : ∀ (w : Fin n → ℝ) (mu : ℝ), w ≠ 0 → A *ᵥ w = mu • w →
    (∃ p ∈ printed, p.1 = mu ∧ p.2 ⬝ᵥ w ≠ 0) ∨ ∀ p ∈ printed, le p.1 mu

theorem print_spec (tools : EigenTools n) (ht : tools.Lawful) (b : Build) (featureText : F → List Char)
    (A : Matrix (Fin n) (Fin n) ℝ) (hA : A.IsSymm) (features : Fin n → F) (extra : List F) (count : Nat)
    (hc : count ≤ n) (hn : 0 < n) (comp : ℝ → ℝ → Prop) (hcomp : StrictWeak comp) (thr : ℝ) :
    ∃ (lo hi : ℝ) (printed : List (ℝ × (Fin n → ℝ))) (ts : List (List Char)),
      printEigenDirections tools b featureText A (List.ofFn features ++ extra) count comp thr =
        .ok (extremesText lo hi ++ ts.flatten) ∧
      List.Forall₂ (IsDirectionText featureText features thr) printed ts ∧
      FirstDirections A (fun x y => ¬ comp y x) count printed ∧
      (∃ w : Fin n → ℝ, w ≠ 0 ∧ A *ᵥ w = lo • w) ∧ (∃ w : Fin n → ℝ, w ≠ 0 ∧ A *ᵥ w = hi • w) ∧
      ∀ (w : Fin n → ℝ) (mu : ℝ), w ≠ 0 → A *ᵥ w = mu • w → lo ≤ mu ∧ mu ≤ hi := by
  obtain ⟨values, vectors, hsolve⟩ : ∃ values vectors, tools.solve A = (values, vectors) := ⟨_, _, rfl⟩
  have horth : vectorsᵀ * vectors = 1 := by have := ht.orthonormal A; rwa [hsolve] at this
  have hlow : lowerSymmetric A = A := by
    ext i j
    rw [lowerSymmetric, of_apply]
    split
    · rfl
    · exact hA.apply i j
  have heig : A * vectors = vectors * diagonal values := by
    have := ht.eigen A
    rwa [hsolve, hlow] at this
  have hunit : ∀ i j, (fun k => vectors k i) ⬝ᵥ (fun k => vectors k j) = if i = j then 1 else 0 := by
    intro i j
    have := congrFun (congrFun horth i) j
    rw [Matrix.mul_apply, Matrix.one_apply] at this
    exact this
  have hev : ∀ i, A *ᵥ (fun k => vectors k i) = values i • fun k => vectors k i := by
    intro i
    ext k
    have := congrFun (congrFun heig k) i
    rw [Matrix.mul_apply, Matrix.mul_diagonal] at this
    simp only [mulVec, dotProduct, Pi.smul_apply, smul_eq_mul]
    rw [this, mul_comm]
  have hany : ∀ (w : Fin n → ℝ) (mu : ℝ), w ≠ 0 → A *ᵥ w = mu • w →
      ∃ i, values i = mu ∧ (fun k => vectors k i) ⬝ᵥ w ≠ 0 := by
    intro w mu hw hmu
    have hright : vectors * vectorsᵀ = 1 := mul_eq_one_comm.1 horth
    by_contra hno
    push Not at hno
    have hzero : vectorsᵀ *ᵥ w = 0 := by
      ext i
      have h1 : (vectorsᵀ *ᵥ (A *ᵥ w)) i = values i * (vectorsᵀ *ᵥ w) i := by
        have h2 : vectorsᵀ * A = diagonal values * vectorsᵀ := by
          have := congrArg Matrix.transpose heig
          rwa [Matrix.transpose_mul, Matrix.transpose_mul, diagonal_transpose, hA.eq] at this
        rw [mulVec_mulVec, h2, ← mulVec_mulVec, mulVec_diagonal]
      rw [hmu, mulVec_smul] at h1
      simp only [Pi.smul_apply, smul_eq_mul] at h1
      by_cases hv : values i = mu
      · exact hno i hv
      · have h3 : (mu - values i) * (vectorsᵀ *ᵥ w) i = 0 := by rw [sub_mul, h1, sub_self]
        rcases mul_eq_zero.1 h3 with h4 | h4
        · exact absurd (sub_eq_zero.1 h4).symm hv
        · exact h4
    apply hw
    have : vectors *ᵥ (vectorsᵀ *ᵥ w) = w := by rw [mulVec_mulVec, hright, one_mulVec]
    rw [← this, hzero, mulVec_zero]
  have hvne : ∀ i, (fun k => vectors k i) ≠ 0 := by
    intro i h0
    have := hunit i i
    rw [h0, zero_dotProduct, if_pos rfl] at this
    exact zero_ne_one this
  set all := (List.finRange n).map fun i => (values i, fun k => vectors k i) with hall
  obtain ⟨hperm, hsort⟩ := ht.pairs comp hcomp all
  set pairs := tools.sortPairs comp all with hpairs
  have hplen : pairs.length = n := by
    rw [hperm.length_eq, hall, List.length_map, List.length_finRange]
  obtain ⟨lo, hi, hlo, hhi, ⟨ilo, elo⟩, ⟨ihi, ehi⟩, hext⟩ := extremeCoeff_ok b values hn
  obtain ⟨ts, hts, hforall⟩ := printDirections_ok tools ht featureText features extra thr pairs
    (extremesText lo hi) count (by omega)
  have hmem : ∀ p, p ∈ pairs ↔ ∃ i, p = (values i, fun k => vectors k i) := by
    intro p
    rw [hperm.mem_iff, hall, List.mem_map]
    constructor
    · rintro ⟨i, -, h⟩; exact ⟨i, h.symm⟩
    · rintro ⟨i, h⟩; exact ⟨i, List.mem_finRange i, h.symm⟩
  have horthp : pairs.Pairwise fun p q => p.2 ⬝ᵥ q.2 = 0 := by
    have hsymm : ∀ {p q : ℝ × (Fin n → ℝ)}, p.2 ⬝ᵥ q.2 = 0 → q.2 ⬝ᵥ p.2 = 0 := fun h => by
      rw [dotProduct_comm]; exact h
    refine (hperm.pairwise_iff hsymm).2 ?_
    rw [hall, List.pairwise_map]
    refine (List.nodup_finRange n).imp fun {i j} hij => ?_
    rw [hunit i j, if_neg hij]
  have hsub := List.take_sublist count pairs
  refine ⟨lo, hi, pairs.take count, ts, ?_, hforall, ⟨?_, ?_, horthp.sublist hsub, hsort.sublist hsub, ?_⟩,
    ⟨_, hvne ilo, by rw [← elo]; exact hev ilo⟩, ⟨_, hvne ihi, by rw [← ehi]; exact hev ihi⟩, ?_⟩
  · rw [printEigenDirections, hsolve]
    simp only [← hall, ← hpairs]
    rw [hlo]
    simp only [except_ok_bind]
    rw [hhi]
    simp only [except_ok_bind]
    exact hts
  · rw [List.length_take, hplen]; omega
  · intro p hp
    obtain ⟨i, rfl⟩ := (hmem p).1 (hsub.subset hp)
    exact ⟨hev i, by rw [hunit i i, if_pos rfl]⟩
  · intro w mu hw hmu
    obtain ⟨i, hi1, hi2⟩ := hany w mu hw hmu
    have hin : ((values i, fun k => vectors k i) : ℝ × (Fin n → ℝ)) ∈ pairs := (hmem _).2 ⟨i, rfl⟩
    rw [← List.take_append_drop count pairs] at hin hsort
    rcases List.mem_append.1 hin with hin | hin
    · exact .inl ⟨_, hin, hi1, hi2⟩
    · refine .inr fun p hp => ?_
      have := (List.pairwise_append.1 hsort).2.2 p hp _ hin
      rwa [hi1] at this
  · intro w mu hw hmu
    obtain ⟨i, hi1, -⟩ := hany w mu hw hmu
    rw [← hi1]; exact hext i

/-- **C103**: coefficients are aligned to the right: a text shorter than the width is filled up with spaces before
it, a longer one is printed as it is. -/
theorem C103_right_aligned (n : Nat) (t : List Char) :
    (padLeft n t).length = max n t.length ∧ t <:+ padLeft n t ∧
      ∀ c ∈ (padLeft n t).take (n - t.length), c = ' ' := by
  refine ⟨by simp [padLeft]; omega, ⟨_, rfl⟩, fun c hc => ?_⟩
  rw [padLeft, List.take_left' (by simp)] at hc
  exact List.eq_of_mem_replicate hc

/-- C103: for a symmetric matrix with at least `count` rows and a feature for each row, `print_small_eigen_directions`
prints the extreme eigenvalues and then the `count` smallest eigenvalues in ascending order, each with a unit
eigenvector: the coefficients above the threshold and their features, largest first. -/
theorem C103_small (tools : EigenTools n) (ht : tools.Lawful) (b : Build) (featureText : F → List Char)
    (A : Matrix (Fin n) (Fin n) ℝ) (hA : A.IsSymm) (features : Fin n → F) (extra : List F) (count : Nat)
    (hc : count ≤ n) (hn : 0 < n) (thr : ℝ) :
    ∃ (lo hi : ℝ) (printed : List (ℝ × (Fin n → ℝ))) (ts : List (List Char)),
      printSmallEigenDirections tools b featureText A (List.ofFn features ++ extra) count thr =
        .ok (extremesText lo hi ++ ts.flatten) ∧
      List.Forall₂ (IsDirectionText featureText features thr) printed ts ∧
      FirstDirections A (fun x y => x ≤ y) count printed ∧
      (∃ w : Fin n → ℝ, w ≠ 0 ∧ A *ᵥ w = lo • w) ∧ (∃ w : Fin n → ℝ, w ≠ 0 ∧ A *ᵥ w = hi • w) ∧
      ∀ (w : Fin n → ℝ) (mu : ℝ), w ≠ 0 → A *ᵥ w = mu • w → lo ≤ mu ∧ mu ≤ hi := by
  have hs : StrictWeak fun a b : ℝ => a < b :=
    ⟨lt_irrefl, fun _ _ _ => lt_trans, fun _ _ _ h1 h2 => not_lt.2 ((not_lt.1 h2).trans (not_lt.1 h1))⟩
  have := print_spec tools ht b featureText A hA features extra count hc hn (fun a b => a < b) hs thr
  simpa only [not_lt, printSmallEigenDirections] using this

/-- C103: the same for `print_large_eigen_directions`, largest first. -/
theorem C103_large (tools : EigenTools n) (ht : tools.Lawful) (b : Build) (featureText : F → List Char)
    (A : Matrix (Fin n) (Fin n) ℝ) (hA : A.IsSymm) (features : Fin n → F) (extra : List F) (count : Nat)
    (hc : count ≤ n) (hn : 0 < n) (thr : ℝ) :
    ∃ (lo hi : ℝ) (printed : List (ℝ × (Fin n → ℝ))) (ts : List (List Char)),
      printLargeEigenDirections tools b featureText A (List.ofFn features ++ extra) count thr =
        .ok (extremesText lo hi ++ ts.flatten) ∧
      List.Forall₂ (IsDirectionText featureText features thr) printed ts ∧
      FirstDirections A (fun x y => y ≤ x) count printed ∧
      (∃ w : Fin n → ℝ, w ≠ 0 ∧ A *ᵥ w = lo • w) ∧ (∃ w : Fin n → ℝ, w ≠ 0 ∧ A *ᵥ w = hi • w) ∧
      ∀ (w : Fin n → ℝ) (mu : ℝ), w ≠ 0 → A *ᵥ w = mu • w → lo ≤ mu ∧ mu ≤ hi := by
  have hs : StrictWeak fun a b : ℝ => b < a :=
    ⟨lt_irrefl, fun _ _ _ h1 h2 => h2.trans h1, fun _ _ _ h1 h2 => not_lt.2 ((not_lt.1 h1).trans (not_lt.1 h2))⟩
  have := print_spec tools ht b featureText A hA features extra count hc hn (fun a b => b < a) hs thr
  simpa only [not_lt, printLargeEigenDirections, gt_iff_lt] using this

/-- Asking for more directions than there are rows reads past the end (the features being sufficient). -/
theorem C103_count_too_large (tools : EigenTools n) (ht : tools.Lawful) (b : Build) (featureText : F → List Char)
    (A : Matrix (Fin n) (Fin n) ℝ) (features : Fin n → F) (extra : List F) (count : Nat) (hc : n < count)
    (hn : 0 < n) (thr : ℝ) :
    printSmallEigenDirections tools b featureText A (List.ofFn features ++ extra) count thr = .error .ub := by
  have hs : StrictWeak fun a b : ℝ => a < b :=
    ⟨lt_irrefl, fun _ _ _ => lt_trans, fun _ _ _ h1 h2 => not_lt.2 ((not_lt.1 h2).trans (not_lt.1 h1))⟩
  rw [printSmallEigenDirections, printEigenDirections]
  obtain ⟨lo, hi, hlo, hhi, -⟩ := extremeCoeff_ok b (tools.solve A).1 hn
  rw [hlo]
  simp only [except_ok_bind]
  rw [hhi]
  simp only [except_ok_bind]
  obtain ⟨hperm, -⟩ := ht.pairs (fun a b => a < b) hs
    ((List.finRange n).map fun i => ((tools.solve A).1 i, fun k => (tools.solve A).2 k i))
  set pairs := tools.sortPairs (fun a b => a < b)
    ((List.finRange n).map fun i => ((tools.solve A).1 i, fun k => (tools.solve A).2 k i)) with hpairs
  have hplen : pairs.length = n := by rw [hperm.length_eq, List.length_map, List.length_finRange]
  obtain ⟨m, rfl⟩ : ∃ m, count = n + (m + 1) := ⟨count - n - 1, by omega⟩
  rw [List.range_add, List.foldlM_append]
  obtain ⟨ts, hts, -⟩ := printDirections_ok tools ht featureText features extra thr pairs
    (['M', 'I', 'N', ':', ' '] ++ sciText 7 (.fin lo) ++ ['\n'] ++ ['M', 'A', 'X', ':', ' '] ++
      sciText 7 (.fin hi) ++ ['\n']) n (by omega)
  rw [hts]
  simp only [except_ok_bind]
  rw [List.range_succ_eq_map, List.map_cons, List.foldlM_cons, printDirection]
  have hub : vecGet pairs (n + 0) = .error .ub := by
    unfold vecGet
    rw [List.getElem?_eq_none (by omega)]
  rw [hub]
  rfl

/-- An empty matrix has no smallest coefficient. -/
theorem C103_empty (tools : EigenTools 0) (featureText : F → List Char) (A : Matrix (Fin 0) (Fin 0) ℝ)
    (features : List F) (count : Nat) (thr : ℝ) :
    printSmallEigenDirections tools .debug featureText A features count thr = .error .assertFail ∧
      printSmallEigenDirections tools .ndebug featureText A features count thr = .error .ub := by
  constructor <;>
    · rw [printSmallEigenDirections, printEigenDirections, extremeCoeff]
      rfl

/-- Only the lower triangle is read: for a matrix that is not symmetric no printed value need be an eigenvalue. -/
theorem C103_asymmetric : ∃ A : Matrix (Fin 2) (Fin 2) ℝ, ∀ tools : EigenTools 2, tools.Lawful →
    ∀ (i : Fin 2) (w : Fin 2 → ℝ), w ≠ 0 → A *ᵥ w ≠ (tools.solve A).1 i • w := by
  refine ⟨!![0, 0; 1, 0], fun tools ht i w hw h => ?_⟩
  have hlow : lowerSymmetric !![(0 : ℝ), 0; 1, 0] = !![0, 1; 1, 0] := by
    ext i j
    fin_cases i <;> fin_cases j <;> simp [lowerSymmetric]
  have heig := ht.eigen !![(0 : ℝ), 0; 1, 0]
  have hunit := ht.orthonormal !![(0 : ℝ), 0; 1, 0]
  rw [hlow] at heig
  set mu := (tools.solve !![(0 : ℝ), 0; 1, 0]).1 i
  set V := (tools.solve !![(0 : ℝ), 0; 1, 0]).2
  have h0 := congrFun h 0
  have h1 := congrFun h 1
  simp [mulVec, dotProduct, Fin.sum_univ_two] at h0 h1
  have hmu : mu = 0 := by
    rcases h0 with h0 | h0
    · exact h0
    · by_contra hne
      apply hw
      ext k
      fin_cases k
      · exact h0
      · rw [h0] at h1
        rcases (mul_eq_zero.1 h1.symm) with h2 | h2
        · exact absurd h2 hne
        · exact h2
  have e0 := congrFun (congrFun heig 0) i
  have e1 := congrFun (congrFun heig 1) i
  rw [Matrix.mul_diagonal] at e0 e1
  have hmu' : (tools.solve !![(0 : ℝ), 0; 1, 0]).1 i = 0 := hmu
  rw [hmu', mul_zero] at e0 e1
  simp [Matrix.mul_apply, Fin.sum_univ_two] at e0 e1
  have e2 := congrFun (congrFun hunit i) i
  simp [Matrix.mul_apply, Fin.sum_univ_two, e0, e1] at e2

example : ∃ (tools : EigenTools 3) (A : Matrix (Fin 3) (Fin 3) ℝ), tools.Lawful ∧ A.IsSymm ∧ A ≠ 0 ∧ 2 ≤ 3 := by
  obtain ⟨t, ht⟩ := eigenTools_exist 3
  exact ⟨t, 1, ht, Matrix.isSymm_one, one_ne_zero, by norm_num⟩

end Albatross
