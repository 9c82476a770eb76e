import Verif.LinComb
import Verif.MeanFunctions
import Verif.CallersProps
import Verif.UtilsProps
import Verif.SimpleModelsProps
import Mathlib.Data.Matrix.Mul
import Mathlib.Data.Fintype.BigOperators
import Mathlib.Tactic.Linarith

/-! # Linear transforms of features (C65) -/

namespace Albatross

variable {X Y : Type}

/-! ## Specification -/

/-- The value of a combination of the numbers `f x`: what a linear operation on features has to respect. -/
def LinComb.eval (l : LinComb X) (f : X → ℝ) : ℝ := ((List.zip l.coefficients l.values).map fun p => p.1 * f p.2).sum

/-- As many coefficients as values. -/
def LinComb.Ok (l : LinComb X) : Prop := l.coefficients.length = l.values.length

/-- The matrix stored as a list of entries (entries at the same place add up). -/
def EntryMat.dense (m : EntryMat) (i j : Nat) : ℝ :=
  ((m.entries.filter fun e => e.1 = i ∧ e.2.1 = j).map fun e => e.2.2).sum

/-- All entries are inside the matrix. -/
def EntryMat.InRange (m : EntryMat) : Prop := ∀ e ∈ m.entries, e.1 < m.rows ∧ e.2.1 < m.cols

section helpers

theorem vecGet_of_getElem? {l : List X} {i : Nat} {x : X} (h : l[i]? = some x) : vecGet l i = .ok x := by
  unfold vecGet
  rw [h]

theorem storeCoefs_id (acc : List (LinComb X)) : storeCoefs acc = acc := by
  unfold storeCoefs
  conv_rhs => rw [← List.map_id acc]
  refine List.map_congr_left fun l _ => ?_
  obtain ⟨v, c⟩ := l
  cases c with
  | nil => rfl
  | cons a c => rfl

theorem pushRow_ok {acc : List (LinComb X)} {row : Nat} (h : row < acc.length) (x : X) (c : ℝ) :
    ∃ acc', pushRow acc row x c = .ok acc' ∧ acc'.length = acc.length ∧
      ∀ i, acc'[i]? = (acc[i]?).map fun l => if i = row then ⟨l.values ++ [x], l.coefficients ++ [c]⟩ else l := by
  refine ⟨acc.set row ⟨acc[row].values ++ [x], acc[row].coefficients ++ [c]⟩, ?_, by simp, fun i => ?_⟩
  · unfold pushRow
    rw [vecGet_of_getElem? (List.getElem?_eq_getElem h), except_ok_bind]
    rfl
  · rw [List.getElem?_set]
    by_cases hi : row = i
    · subst hi
      rw [if_pos rfl, if_pos h, List.getElem?_eq_getElem h]
      simp
    · rw [if_neg hi]
      cases acc[i]? with
      | none => rfl
      | some l => simp [Ne.symm hi]

theorem eval_push (l : LinComb X) (h : l.Ok) (x : X) (c : ℝ) (f : X → ℝ) :
    (LinComb.mk (l.values ++ [x]) (l.coefficients ++ [c])).Ok ∧
    (LinComb.mk (l.values ++ [x]) (l.coefficients ++ [c])).eval f = l.eval f + c * f x := by
  refine ⟨?_, ?_⟩
  · unfold LinComb.Ok at *
    simp [h]
  · unfold LinComb.eval
    rw [List.zip_append h]
    simp

/-- Rows being filled: what has been pushed so far. -/
def RowsHold (rows : Nat) (acc : List (LinComb X)) (g : Nat → (X → ℝ) → ℝ) : Prop :=
  acc.length = rows ∧ ∀ i l, acc[i]? = some l → l.Ok ∧ ∀ f, l.eval f = g i f

theorem rowsHold_start (rows : Nat) : RowsHold (X := X) rows (List.replicate rows LinComb.empty) fun _ _ => 0 := by
  refine ⟨by simp, fun i l h => ?_⟩
  have := List.mem_of_getElem? h
  rw [List.mem_replicate] at this
  rw [this.2]
  exact ⟨rfl, fun f => rfl⟩

theorem rowsHold_push {rows : Nat} {acc : List (LinComb X)} {g : Nat → (X → ℝ) → ℝ} (h : RowsHold rows acc g)
    {row : Nat} (hr : row < rows) (x : X) (c : ℝ) :
    ∃ acc', pushRow acc row x c = .ok acc' ∧
      RowsHold rows acc' fun i f => g i f + if i = row then c * f x else 0 := by
  obtain ⟨acc', h1, h2, h3⟩ := pushRow_ok (acc := acc) (row := row) (by rw [h.1]; exact hr) x c
  refine ⟨acc', h1, by rw [h2, h.1], fun i l hl => ?_⟩
  rw [h3] at hl
  cases ha : acc[i]? with
  | none => rw [ha] at hl; simp at hl
  | some l0 =>
    rw [ha] at hl
    simp only [Option.map_some, Option.some.injEq] at hl
    obtain ⟨k1, k2⟩ := h.2 i l0 ha
    by_cases hi : i = row
    · rw [if_pos hi] at hl
      subst hl
      refine ⟨(eval_push l0 k1 x c fun _ => 0).1, fun f => ?_⟩
      rw [(eval_push l0 k1 x c f).2, k2]
      show _ = _ + ite _ _ _
      rw [if_pos hi]
    · rw [if_neg hi] at hl
      subst hl
      refine ⟨k1, fun f => ?_⟩
      rw [k2]
      show _ = _ + ite _ _ _
      rw [if_neg hi, add_zero]

/-- The loop over the entries. -/
theorem sparseLoop (rows : Nat) (features : List X) (es : List (Nat × Nat × ℝ)) (acc : List (LinComb X))
    (g : Nat → (X → ℝ) → ℝ) (h : RowsHold rows acc g)
    (hin : ∀ e ∈ es, e.1 < rows ∧ e.2.1 < features.length) :
    ∃ acc', es.foldlM (fun acc e => do
        let x ← vecGet features e.2.1
        pushRow acc e.1 x e.2.2) acc = Except.ok acc' ∧
      RowsHold rows acc' fun i f => g i f +
        (es.map fun e => if e.1 = i then e.2.2 * ((features[e.2.1]?).map f).getD 0 else 0).sum := by
  induction es generalizing acc g with
  | nil =>
    refine ⟨acc, rfl, ?_⟩
    simpa using h
  | cons e es ih =>
    have he := hin e List.mem_cons_self
    obtain ⟨acc1, h1, h2⟩ := rowsHold_push h he.1 (features[e.2.1]'he.2) e.2.2
    obtain ⟨acc2, h3, h4⟩ := ih acc1 _ h2 fun e' he' => hin e' (List.mem_cons_of_mem _ he')
    refine ⟨acc2, ?_, h4.1, fun i l hl => ⟨(h4.2 i l hl).1, fun f => ?_⟩⟩
    · rw [List.foldlM_cons, vecGet_of_getElem? (List.getElem?_eq_getElem he.2), except_ok_bind, h1, except_ok_bind]
      exact h3
    · rw [(h4.2 i l hl).2 f]
      beta_reduce
      rw [List.map_cons, List.sum_cons, List.getElem?_eq_getElem he.2]
      simp only [Option.map_some, Option.getD_some, eq_comm (a := i)]
      ring

theorem sum_split_cols (n i : Nat) (es : List (Nat × Nat × ℝ)) (hin : ∀ e ∈ es, e.2.1 < n) (v : Nat → ℝ) :
    (es.map fun e => if e.1 = i then e.2.2 * v e.2.1 else 0).sum =
      ∑ j : Fin n, ((es.filter fun e => e.1 = i ∧ e.2.1 = j.val).map fun e => e.2.2).sum * v j.val := by
  induction es with
  | nil => simp
  | cons e es ih =>
    rw [List.map_cons, List.sum_cons, ih fun e' he' => hin e' (List.mem_cons_of_mem _ he')]
    have he := hin e List.mem_cons_self
    have h : ∀ j : Fin n, (((e :: es).filter fun e => e.1 = i ∧ e.2.1 = j.val).map fun e => e.2.2).sum * v j.val =
        (if e.1 = i ∧ e.2.1 = j.val then e.2.2 * v j.val else 0) +
          ((es.filter fun e => e.1 = i ∧ e.2.1 = j.val).map fun e => e.2.2).sum * v j.val := by
      intro j
      rw [List.filter_cons]
      by_cases hc : e.1 = i ∧ e.2.1 = j.val
      · rw [if_pos (by simpa using hc), if_pos hc, List.map_cons, List.sum_cons, add_mul]
      · rw [if_neg (by simpa using hc), if_neg hc, zero_add]
    simp only [h]
    rw [Finset.sum_add_distrib]
    congr 1
    by_cases hi : e.1 = i
    · rw [if_pos hi, Finset.sum_eq_single (⟨e.2.1, he⟩ : Fin n)]
      · rw [if_pos ⟨hi, rfl⟩]
      · intro j _ hj
        rw [if_neg]
        rintro ⟨_, h2⟩
        exact hj (Fin.ext h2.symm)
      · intro h0
        exact absurd (Finset.mem_univ _) h0
    · rw [if_neg hi, eq_comm]
      exact Finset.sum_eq_zero fun j _ => by rw [if_neg fun h => hi h.1]

end helpers

/-! ## Products -/

/-- **C65**: a sparse matrix times features gives, for each row, the combination with the coefficients of that
row, whatever the order in which the entries are stored. -/
theorem C65_sparse (m : EntryMat) (hm : m.InRange) (xs : Fin m.cols → X) :
    ∃ out, sparseTimes m (List.ofFn xs) = .ok out ∧ out.length = m.rows ∧
      ∀ i l, out[i]? = some l → l.Ok ∧ ∀ f : X → ℝ, l.eval f = ∑ j : Fin m.cols, m.dense i j.val * f (xs j) := by
  obtain ⟨acc, h1, h2⟩ := sparseLoop m.rows (List.ofFn xs) m.entries _ _ (rowsHold_start m.rows)
    (fun e he => by simpa using hm e he)
  refine ⟨acc, ?_, h2.1, fun i l hl => ⟨(h2.2 i l hl).1, fun f => ?_⟩⟩
  · unfold sparseTimes
    rw [h1, except_ok_bind, storeCoefs_id]
    rfl
  · rw [(h2.2 i l hl).2 f]
    beta_reduce
    rw [zero_add]
    have := sum_split_cols m.cols i m.entries (fun e he => (hm e he).2)
      (fun k => (((List.ofFn xs)[k]?).map f).getD 0)
    rw [this]
    refine Finset.sum_congr rfl fun j _ => ?_
    congr 1
    simp

section helpers

theorem sparseView_inRange {m n : Nat} (a : Matrix (Fin m) (Fin n) ℝ) : (sparseView a).InRange := by
  intro e he
  simp only [sparseView, List.mem_flatMap, List.mem_map] at he
  obtain ⟨j, _, i, _, rfl⟩ := he
  exact ⟨i.isLt, j.isLt⟩

theorem sparseView_dense {m n : Nat} (a : Matrix (Fin m) (Fin n) ℝ) (i : Fin m) (j : Fin n) :
    (sparseView a).dense i j = a i j := by
  classical
  unfold EntryMat.dense sparseView
  simp only [List.filter_flatMap, List.map_flatMap]
  have h : ∀ k : Fin n, ((((List.finRange m).filter fun i => a i k ≠ 0).map fun i =>
      ((i.val, k.val, a i k) : Nat × Nat × ℝ)).filter fun e => e.1 = i.val ∧ e.2.1 = j.val).map (fun e => e.2.2) =
      if k = j then (if a i k ≠ 0 then [a i k] else []) else [] := by
    intro k
    rw [List.filter_map, List.map_map, List.filter_filter]
    by_cases hk : k = j
    · subst hk
      rw [if_pos rfl]
      have : (List.finRange m).filter (fun x => ((fun e : Nat × Nat × ℝ => decide (e.1 = i.val ∧ e.2.1 = k.val)) ∘
          fun i => (i.val, k.val, a i k)) x && decide (a x k ≠ 0)) =
          if a i k ≠ 0 then [i] else [] := by
        have hf : (List.finRange m).filter (fun x => x == i) = [i] := by
          have := List.filter_beq (l := List.finRange m) i
          rw [this, List.count_eq_one_of_mem (List.nodup_finRange m) (List.mem_finRange i)]
          rfl
        split_ifs with ha
        · rw [← hf]
          refine List.filter_congr fun x _ => ?_
          by_cases hx : x = i
          · subst hx
            simp [ha]
          · have : x.val ≠ i.val := fun h => hx (Fin.ext h)
            simp [hx, this]
        · rw [List.filter_eq_nil_iff]
          intro x _
          by_cases hx : x = i
          · subst hx
            simpa using ha
          · have : x.val ≠ i.val := fun h => hx (Fin.ext h)
            simp [this]
      rw [this]
      split_ifs <;> rfl
    · rw [if_neg hk, List.map_eq_nil_iff, List.filter_eq_nil_iff]
      intro x _
      have : k.val ≠ j.val := fun h => hk (Fin.ext h)
      simp [this]
  simp only [h]
  rw [show (List.finRange n).flatMap (fun k => if k = j then (if a i k ≠ 0 then [a i k] else []) else []) =
      if a i j ≠ 0 then [a i j] else [] from ?_]
  · split_ifs with h0
    · simp
    · simp only [not_not] at h0
      simp [h0]
  · have hf : (List.finRange n).filter (fun x => x == j) = [j] := by
      have := List.filter_beq (l := List.finRange n) j
      rw [this, List.count_eq_one_of_mem (List.nodup_finRange n) (List.mem_finRange j)]
      rfl
    have hg : ∀ l : List (Fin n), l.flatMap (fun k => if k = j then (if a i k ≠ 0 then [a i k] else []) else []) =
        (l.filter fun x => x == j).flatMap fun k => if a i k ≠ 0 then [a i k] else [] := by
      intro l
      induction l with
      | nil => rfl
      | cons k l ih =>
        rw [List.flatMap_cons, ih, List.filter_cons]
        by_cases hk : k = j
        · subst hk
          simp
        · simp [hk]
    rw [hg, hf]
    simp

end helpers

/-- **C65**: a dense matrix times features: row `i` is the combination with coefficients `a i ·`. -/
theorem C65_dense {m n : Nat} (a : Matrix (Fin m) (Fin n) ℝ) (xs : Fin n → X) :
    ∃ out : Fin m → LinComb X, denseTimes a (List.ofFn xs) = .ok (List.ofFn out) ∧
      ∀ i, (out i).Ok ∧ ∀ f : X → ℝ, (out i).eval f = ∑ j, a i j * f (xs j) := by
  obtain ⟨l, h1, h2, h3⟩ := C65_sparse (sparseView a) (sparseView_inRange a) xs
  have hlen : l.length = m := h2
  subst hlen
  refine ⟨fun i => l[i.val], ?_, fun i => ?_⟩
  · rw [List.ofFn_getElem]
    exact h1
  · obtain ⟨k1, k2⟩ := h3 i.val l[i.val] (List.getElem?_eq_getElem i.isLt)
    refine ⟨k1, fun f => (k2 f).trans ?_⟩
    refine Finset.sum_congr rfl fun (j : Fin n) _ => ?_
    rw [sparseView_dense a i j]

section helpers

/-- Pushing all terms of a scaled combination to one row. -/
theorem rowsHold_combo {rows : Nat} (row : Nat) (hr : row < rows) (s : ℝ) (vs : List X) (cs : List ℝ)
    (hok : cs.length = vs.length) (k : Nat) (acc : List (LinComb X)) (g : Nat → (X → ℝ) → ℝ)
    (h : RowsHold rows acc g) :
    ∃ acc', (List.range' k (cs.length - k)).foldlM (fun acc i => do
        let v ← vecGet vs i
        let c ← vecGet cs i
        pushRow acc row v (s * c)) acc = Except.ok acc' ∧
      RowsHold rows acc' fun i f => g i f +
        if i = row then s * (((List.zip cs vs).drop k).map fun p => p.1 * f p.2).sum else 0 := by
  induction hd : cs.length - k generalizing k acc g with
  | zero =>
    refine ⟨acc, rfl, h.1, fun i l hl => ⟨(h.2 i l hl).1, fun f => ?_⟩⟩
    rw [(h.2 i l hl).2 f, List.drop_eq_nil_of_le (by simp; omega)]
    simp
  | succ d ih =>
    have hk : k < cs.length := by omega
    have hk' : k < vs.length := by omega
    obtain ⟨acc1, h1, h2⟩ := rowsHold_push h hr vs[k] (s * cs[k])
    obtain ⟨acc2, h3, h4⟩ := ih (k + 1) acc1 _ h2 (by omega)
    refine ⟨acc2, ?_, h4.1, fun i l hl => ⟨(h4.2 i l hl).1, fun f => ?_⟩⟩
    · rw [List.range'_succ, List.foldlM_cons, vecGet_lt hk', except_ok_bind, vecGet_lt hk, except_ok_bind, h1,
        except_ok_bind]
      exact h3
    · rw [(h4.2 i l hl).2 f]
      beta_reduce
      rw [List.drop_eq_getElem_cons (i := k) (by simp; omega), List.map_cons, List.sum_cons, List.getElem_zip]
      split_ifs
      · ring
      · ring

theorem combosLoop (rows : Nat) (features : List (LinComb X)) (hf : ∀ l ∈ features, l.Ok)
    (es : List (Nat × Nat × ℝ)) (acc : List (LinComb X)) (g : Nat → (X → ℝ) → ℝ) (h : RowsHold rows acc g)
    (hin : ∀ e ∈ es, e.1 < rows ∧ e.2.1 < features.length) :
    ∃ acc', es.foldlM (fun acc e => do
        let combo ← vecGet features e.2.1
        (List.range combo.coefficients.length).foldlM (fun acc i => do
          let v ← vecGet combo.values i
          let c ← vecGet combo.coefficients i
          pushRow acc e.1 v (e.2.2 * c)) acc) acc = Except.ok acc' ∧
      RowsHold rows acc' fun i f => g i f +
        (es.map fun e => if e.1 = i then e.2.2 * ((features[e.2.1]?).map fun l => l.eval f).getD 0 else 0).sum := by
  induction es generalizing acc g with
  | nil =>
    refine ⟨acc, rfl, ?_⟩
    simpa using h
  | cons e es ih =>
    have he := hin e List.mem_cons_self
    obtain ⟨acc1, h1, h2⟩ := rowsHold_combo e.1 he.1 e.2.2 (features[e.2.1]'he.2).values
      (features[e.2.1]'he.2).coefficients (hf _ (List.getElem_mem _)) 0 acc g h
    obtain ⟨acc2, h3, h4⟩ := ih acc1 _ h2 fun e' he' => hin e' (List.mem_cons_of_mem _ he')
    refine ⟨acc2, ?_, h4.1, fun i l hl => ⟨(h4.2 i l hl).1, fun f => ?_⟩⟩
    · rw [Nat.sub_zero, ← List.range_eq_range'] at h1
      rw [List.foldlM_cons, vecGet_lt he.2, except_ok_bind, h1, except_ok_bind]
      exact h3
    · rw [(h4.2 i l hl).2 f]
      beta_reduce
      rw [List.map_cons, List.sum_cons, List.getElem?_eq_getElem he.2]
      simp only [Option.map_some, Option.getD_some, eq_comm (a := i), List.drop_zero]
      unfold LinComb.eval
      ring

end helpers

/-- **C65**: a matrix times combinations gives combinations of the underlying features. -/
theorem C65_combinations {m n : Nat} (a : Matrix (Fin m) (Fin n) ℝ) (xs : Fin n → LinComb X)
    (hxs : ∀ j, (xs j).Ok) :
    ∃ out : Fin m → LinComb X, denseTimesCombos a (List.ofFn xs) = .ok (List.ofFn out) ∧
      ∀ i, (out i).Ok ∧ ∀ f : X → ℝ, (out i).eval f = ∑ j, a i j * (xs j).eval f := by
  obtain ⟨l, h1, h2⟩ := combosLoop m (List.ofFn xs) (fun l hl => by
      obtain ⟨j, rfl⟩ := (List.mem_ofFn' _ _).1 hl
      exact hxs j) (sparseView a).entries _ _ (rowsHold_start m)
    (fun e he => by
      rw [List.length_ofFn]
      exact sparseView_inRange a e he)
  have hlen : l.length = m := h2.1
  subst hlen
  refine ⟨fun i => l[i.val], ?_, fun i => ?_⟩
  · rw [List.ofFn_getElem]
    unfold denseTimesCombos sparseTimesCombos
    rw [show (sparseView a).rows = l.length from rfl, h1, except_ok_bind, storeCoefs_id]
    rfl
  · obtain ⟨k1, k2⟩ := h2.2 i.val l[i.val] (List.getElem?_eq_getElem i.isLt)
    refine ⟨k1, fun f => ?_⟩
    refine (k2 f).trans ?_
    have := sum_split_cols n i.val (sparseView a).entries (fun e he => (sparseView_inRange a e he).2)
      (fun k => (((List.ofFn xs)[k]?).map fun l => l.eval f).getD 0)
    refine (zero_add _).trans (this.trans ?_)
    refine Finset.sum_congr rfl fun j _ => ?_
    have hd := sparseView_dense a i j
    unfold EntryMat.dense at hd
    rw [hd]
    simp

/-- **C65**: transforming twice is transforming with the product of the matrices. -/
theorem C65_composition {k m n : Nat} (a : Matrix (Fin k) (Fin m) ℝ) (b : Matrix (Fin m) (Fin n) ℝ)
    (xs : Fin n → X) :
    ∃ (inner : Fin m → LinComb X) (out direct : Fin k → LinComb X),
      denseTimes b (List.ofFn xs) = .ok (List.ofFn inner) ∧
      denseTimesCombos a (List.ofFn inner) = .ok (List.ofFn out) ∧
      denseTimes (a * b) (List.ofFn xs) = .ok (List.ofFn direct) ∧
      ∀ i f, (out i).eval f = (direct i).eval f := by
  obtain ⟨inner, h1, h2⟩ := C65_dense b xs
  obtain ⟨out, h3, h4⟩ := C65_combinations a inner fun j => (h2 j).1
  obtain ⟨direct, h5, h6⟩ := C65_dense (a * b) xs
  refine ⟨inner, out, direct, h1, h3, h5, fun i f => ?_⟩
  rw [(h4 i).2, (h6 i).2]
  simp only [(h2 _).2, Matrix.mul_apply, Finset.mul_sum, Finset.sum_mul]
  rw [Finset.sum_comm]
  exact Finset.sum_congr rfl fun j _ => Finset.sum_congr rfl fun l _ => by ring

/-! ## Covariance and mean -/

section helpers

theorem biSum_toVal {A B : Type} (x : List (ℝ × A)) (y : List (ℝ × B)) (k : A → B → ℝ) :
    biSum x y k = (x.map fun p => p.1 * (y.map fun q => q.1 * k p.2 q.2).sum).sum := by
  unfold biSum
  congr 1
  refine List.map_congr_left fun p _ => ?_
  rw [← List.sum_map_mul_left]
  congr 1
  refine List.map_congr_left fun q _ => ?_
  ring

end helpers

variable {T : Type} {F : T → Type}

/-- **C65**: the covariance of `a * xs` and `b * ys` is `a K bᵀ`, for every covariance function and all
matrices. -/
theorem C65_covariance (c : Caller F) (τ σ : Ty T) (hτ : Plain τ) (hσ : Plain σ)
    (hv : (defaultCaller c).valid τ σ = true) {m n p q : Nat} (a : Matrix (Fin m) (Fin n) ℝ)
    (b : Matrix (Fin p) (Fin q) ℝ) (xs : Fin n → Val F τ) (ys : Fin q → Val F σ) :
    ∃ (as : Fin m → LinComb (Val F τ)) (bs : Fin p → LinComb (Val F σ)),
      denseTimes a (List.ofFn xs) = .ok (List.ofFn as) ∧ denseTimes b (List.ofFn ys) = .ok (List.ofFn bs) ∧
      Matrix.of (fun i j => (defaultCaller c).call (.lin τ) (.lin σ) (as i).toVal (bs j).toVal) =
        a * Matrix.of (fun k l => (defaultCaller c).call τ σ (xs k) (ys l)) * b.transpose := by
  obtain ⟨as, h1, h2⟩ := C65_dense a xs
  obtain ⟨bs, h3, h4⟩ := C65_dense b ys
  refine ⟨as, bs, h1, h3, ?_⟩
  ext i j
  refine (C21_bilinear c τ σ hτ hσ hv (List.zip (as i).coefficients (as i).values)
    (List.zip (bs j).coefficients (bs j).values)).2.trans ?_
  rw [biSum_toVal]
  have e1 := fun u => (h4 j).2 fun v => (defaultCaller c).call τ σ u v
  unfold LinComb.eval at e1
  have e2 := (h2 i).2 fun u => ∑ l, b j l * (defaultCaller c).call τ σ u (ys l)
  unfold LinComb.eval at e2
  simp only [e1, e2]
  simp only [Matrix.mul_apply, Matrix.transpose_apply, Matrix.of_apply, Finset.sum_mul, Finset.mul_sum]
  rw [Finset.sum_comm]
  exact Finset.sum_congr rfl fun l _ => Finset.sum_congr rfl fun k _ => by ring

/-- **C65**: the cross covariance of `a * xs` with plain features `ys` is `a K`, and in the other order its
transpose. -/
theorem C65_cross_covariance (c : Caller F) (τ : Ty T) (t : T) (hτ : Plain τ)
    (hv : (defaultCaller c).valid τ (.base t) = true) (hv' : (defaultCaller c).valid (.base t) τ = true)
    {m n q : Nat} (a : Matrix (Fin m) (Fin n) ℝ) (xs : Fin n → Val F τ) (ys : Fin q → Val F (.base t)) :
    ∃ as : Fin m → LinComb (Val F τ), denseTimes a (List.ofFn xs) = .ok (List.ofFn as) ∧
      Matrix.of (fun i j => (defaultCaller c).call (.lin τ) (.base t) (as i).toVal (ys j)) =
        a * Matrix.of (fun k l => (defaultCaller c).call τ (.base t) (xs k) (ys l)) ∧
      Matrix.of (fun j i => (defaultCaller c).call (.base t) (.lin τ) (ys j) (as i).toVal) =
        Matrix.of (fun l k => (defaultCaller c).call (.base t) τ (ys l) (xs k)) * a.transpose := by
  obtain ⟨as, h1, h2⟩ := C65_dense a xs
  refine ⟨as, h1, ?_, ?_⟩
  · ext i j
    refine (C21_linear_one_side c τ _ hτ ⟨t, rfl⟩ hv hv' (as i).toVal (ys j)).1.trans ?_
    exact (h2 i).2 fun u => (defaultCaller c).call τ (.base t) u (ys j)
  · ext j i
    refine (C21_linear_one_side c τ _ hτ ⟨t, rfl⟩ hv hv' (as i).toVal (ys j)).2.trans ?_
    refine ((h2 i).2 fun u => (defaultCaller c).call (.base t) τ (ys j) u).trans ?_
    rw [Matrix.mul_apply]
    exact Finset.sum_congr rfl fun k _ => mul_comm _ _

/-- **C65**: the mean of `a * xs` is `a` times the means. -/
theorem C65_mean (c : MeanCaller F) (τ : Ty T) (hτ : Plain τ) (hv : (defaultMean c).valid τ = true) {m n : Nat}
    (a : Matrix (Fin m) (Fin n) ℝ) (xs : Fin n → Val F τ) :
    ∃ as : Fin m → LinComb (Val F τ), denseTimes a (List.ofFn xs) = .ok (List.ofFn as) ∧
      (fun i => (defaultMean c).call (.lin τ) (as i).toVal) =
        a.mulVec fun k => (defaultMean c).call τ (xs k) := by
  obtain ⟨as, h1, h2⟩ := C65_dense a xs
  refine ⟨as, h1, ?_⟩
  funext i
  have hv2 : (meanVar (meanSym c)).valid τ = true := by cases hτ <;> exact hv
  have hc : (meanVar (meanSym c)).call τ = (defaultMean c).call τ := by cases hτ <;> rfl
  have h : (defaultMean c).call (.lin τ) (as i).toVal =
      ((List.zip (as i).coefficients (as i).values).map fun p => p.1 * (defaultMean c).call τ p.2).sum := by
    show (if _ then _ else _) = _
    rw [if_pos hv2, hc]
    exact linSum_eq _ _
  rw [h]
  exact (h2 i).2 fun u => (defaultMean c).call τ u

/-! ## Named combinations -/

/-- **C65**: the coefficients of the named combinations. -/
theorem C65_named (b : Build) (x y : X) (f : X → ℝ) :
    (∃ l, linCombSum b x y = .ok l ∧ l.Ok ∧ l.eval f = f x + f y) ∧
    (∃ l, linCombDifference b x y = .ok l ∧ l.Ok ∧ l.eval f = f x - f y) ∧
    (∃ l, toLinearCombination b x = .ok l ∧ l.Ok ∧ l.eval f = f x) ∧
    (∀ z : Y, ∀ g : Y → ℝ, (∃ l, linCombSumVariant b x z = .ok l ∧ l.Ok ∧ l.eval (Sum.elim f g) = f x + g z) ∧
      (∃ l, linCombDifferenceVariant b x z = .ok l ∧ l.Ok ∧ l.eval (Sum.elim f g) = f x - g z)) := by
  have h2 : ∀ (Z : Type) (u v : Z) (c d : ℝ), LinComb.make b [u, v] [c, d] = .ok ⟨[u, v], [c, d]⟩ := by
    intro Z u v c d
    unfold LinComb.make
    rw [decide_eq_true (by rfl), albatrossAssert_true]
    rfl
  refine ⟨⟨_, h2 X x y 1 1, rfl, ?_⟩, ⟨_, h2 X x y 1 (-1), rfl, ?_⟩, ⟨⟨[x], [1]⟩, ?_, rfl, ?_⟩, fun z g =>
    ⟨⟨_, h2 _ _ _ 1 1, rfl, ?_⟩, ⟨_, h2 _ _ _ 1 (-1), rfl, ?_⟩⟩⟩
  · simp [LinComb.eval]
  · simp [LinComb.eval]
    ring
  · unfold toLinearCombination LinComb.make
    rw [decide_eq_true (by rfl), albatrossAssert_true]
    rfl
  · simp [LinComb.eval]
  · simp [LinComb.eval]
  · simp [LinComb.eval]
    ring

/-- **C65**: `mean` averages, and the constructor without coefficients sums. -/
theorem C65_mean_combination (b : Build) {n : Nat} (xs : Fin n → X) (f : X → ℝ) :
    (∃ l, linCombMean b (List.ofFn xs) = .ok l ∧ l.Ok ∧ l.eval f = (∑ i, f (xs i)) / n) ∧
    (LinComb.ofValues (List.ofFn xs)).Ok ∧ (LinComb.ofValues (List.ofFn xs)).eval f = ∑ i, f (xs i) := by
  have key : ∀ c : ℝ, ((List.zip (List.replicate n c) (List.ofFn xs)).map fun p => p.1 * f p.2).sum =
      c * ∑ i, f (xs i) := by
    intro c
    have : (List.zip (List.replicate n c) (List.ofFn xs)).map (fun p => p.1 * f p.2) =
        List.ofFn fun i => c * f (xs i) := by
      apply List.ext_getElem <;> simp
    rw [this, List.sum_ofFn, Finset.mul_sum]
  refine ⟨⟨⟨List.ofFn xs, List.replicate n (1 / n)⟩, ?_, by simp [LinComb.Ok], ?_⟩, by
    simp [LinComb.Ok, LinComb.ofValues], ?_⟩
  · unfold linCombMean LinComb.make
    rw [decide_eq_true (by simp), albatrossAssert_true, List.length_ofFn]
    rfl
  · unfold LinComb.eval
    rw [key]
    ring
  · unfold LinComb.eval LinComb.ofValues
    rw [List.length_ofFn, key, one_mul]

/-- **C65**: the constructor rejects a wrong number of coefficients, but only with assertions. -/
theorem C65_constructor (values : List X) (coefficients : List ℝ) (h : values.length ≠ coefficients.length) :
    LinComb.make .debug values coefficients = .error .assertFail ∧
    LinComb.make .ndebug values coefficients = .ok ⟨values, coefficients⟩ := by
  unfold LinComb.make
  rw [decide_eq_false h]
  exact ⟨rfl, rfl⟩

/-- **C65**: the number of columns is not compared with the number of features: further features are ignored
without notice, and a missing one is undefined behaviour. -/
theorem C65_sizes_unchecked_false :
    (∀ (m : EntryMat) (xs ys : List X), m.InRange → m.cols ≤ xs.length →
      sparseTimes m (xs ++ ys) = sparseTimes m xs) ∧
    (∀ x : X, denseTimes (Matrix.of fun _ _ => 1 : Matrix (Fin 1) (Fin 2) ℝ) [x] = .error .ub) := by
  refine ⟨fun m xs ys hm hc => ?_, fun x => ?_⟩
  · unfold sparseTimes
    have h : ∀ (es : List (Nat × Nat × ℝ)) (acc : List (LinComb X)), (∀ e ∈ es, e.2.1 < xs.length) →
        es.foldlM (fun acc e => do
          let x ← vecGet (xs ++ ys) e.2.1
          pushRow acc e.1 x e.2.2) acc =
        es.foldlM (fun acc e => do
          let x ← vecGet xs e.2.1
          pushRow acc e.1 x e.2.2) acc := by
      intro es
      induction es with
      | nil => intro acc _; rfl
      | cons e es ih =>
        intro acc he
        have h1 := he e List.mem_cons_self
        have h2 : vecGet (xs ++ ys) e.2.1 = vecGet xs e.2.1 := by
          unfold vecGet
          rw [List.getElem?_append_left h1]
        rw [List.foldlM_cons, List.foldlM_cons, h2]
        congr 1
        funext acc'
        exact ih acc' fun e' he' => he e' (List.mem_cons_of_mem _ he')
    rw [h _ _ fun e he => lt_of_lt_of_le (hm e he).2 hc]
  · have he : (sparseView (Matrix.of fun _ _ => 1 : Matrix (Fin 1) (Fin 2) ℝ)).entries = [(0, 0, 1), (0, 1, 1)] := by
      simp [sparseView, List.finRange_succ]
    unfold denseTimes sparseTimes
    rw [he]
    rfl

example : ∃ out : Fin 2 → LinComb String,
    denseTimes (Matrix.of ![![1, 0, -1], ![0, 2, 0]] : Matrix (Fin 2) (Fin 3) ℝ) (List.ofFn !["a", "b", "c"]) =
      .ok (List.ofFn out) ∧ ∀ f, (out 0).eval f = f "a" - f "c" ∧ (out 1).eval f = 2 * f "b" := by
  obtain ⟨out, h1, h2⟩ := C65_dense (Matrix.of ![![1, 0, -1], ![0, 2, 0]] : Matrix (Fin 2) (Fin 3) ℝ) !["a", "b", "c"]
  refine ⟨out, h1, fun f => ⟨?_, ?_⟩⟩
  · rw [(h2 0).2]
    simp [Fin.sum_univ_three]
    ring
  · rw [(h2 1).2]
    simp [Fin.sum_univ_three]

end Albatross
