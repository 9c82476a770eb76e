import Verif.GroupedOps
import Verif.IndexingProps
import Verif.UtilsProps

/-! # C97: what the operations on groupings return -/

namespace Albatross

variable {α β K V : Type}

/-! ## Specifications -/

/-- `kv` is an entry of `m`, no entry has a smaller value, and it has the smallest key among the entries
whose value is not larger. -/
def IsFirstMin [LT V] [LinearOrder K] (m : SMap K V) (kv : K × V) : Prop :=
  m.find? kv.1 = some kv.2 ∧ ∀ k v, m.find? k = some v → ¬ v < kv.2 ∧ (¬ kv.2 < v → kv.1 ≤ k)

/-- The same for the largest value. -/
def IsFirstMax [LT V] [LinearOrder K] (m : SMap K V) (kv : K × V) : Prop :=
  m.find? kv.1 = some kv.2 ∧ ∀ k v, m.find? k = some v → ¬ kv.2 < v ∧ (¬ v < kv.2 → kv.1 ≤ k)

/-- `<` orders the values of the map. -/
def ValuesOrdered [LT V] (m : SMap K V) : Prop :=
  (∀ a ∈ m.values, ∀ c ∈ m.values, a < c → ¬ c < a) ∧
  ∀ a ∈ m.values, ∀ c ∈ m.values, ∀ e ∈ m.values, ¬ c < a → ¬ e < c → ¬ e < a

theorem valuesOrdered_of_linear [LinearOrder V] (m : SMap K V) : ValuesOrdered m :=
  ⟨fun _ _ _ _ h => not_lt.2 h.le,
    fun _ _ _ _ _ _ h1 h2 => not_lt.2 ((not_lt.1 h1).trans (not_lt.1 h2))⟩

theorem valuesOrdered_of_dbl (m : SMap K Dbl) (h : ∀ v ∈ m.values, v ≠ .nan) : ValuesOrdered m := by
  refine ⟨fun a ha c hc hl => Dbl.not_lt_of_le (Dbl.le_of_lt hl), fun a ha c hc e he h1 h2 => ?_⟩
  rw [Dbl.not_lt (h c hc) (h a ha)] at h1
  rw [Dbl.not_lt (h e he) (h c hc)] at h2
  exact Dbl.not_lt_of_le (Dbl.le_trans h1 h2)

/-- The scan of `std::min_element` over the entries after `pre`. -/
theorem minLoop [LT V] [DecidableLT V] [LinearOrder K] (all : List (K × V))
    (h1 : ∀ x ∈ all, ∀ y ∈ all, x.2 < y.2 → ¬ y.2 < x.2)
    (h2 : ∀ x ∈ all, ∀ y ∈ all, ∀ z ∈ all, ¬ y.2 < x.2 → ¬ z.2 < y.2 → ¬ z.2 < x.2) :
    ∀ (rest pre : List (K × V)) (best : K × V), pre ++ rest = all → all.Pairwise (fun x y => x.1 < y.1) →
      best ∈ pre → (∀ y ∈ pre, ¬ y.2 < best.2 ∧ (¬ best.2 < y.2 → best.1 ≤ y.1)) →
      let r := rest.foldl (fun smallest y => if y.2 < smallest.2 then y else smallest) best
      r ∈ all ∧ ∀ y ∈ all, ¬ y.2 < r.2 ∧ (¬ r.2 < y.2 → r.1 ≤ y.1) := by
  intro rest
  induction rest with
  | nil =>
    intro pre best hp hw hb hy
    rw [List.append_nil] at hp
    subst hp
    exact ⟨hb, hy⟩
  | cons a t ih =>
    intro pre best hp hw hb hy
    have hsub : ∀ y ∈ pre, y ∈ all := fun y hy => hp ▸ List.mem_append_left _ hy
    have ha : a ∈ all := hp ▸ List.mem_append_right _ (by simp)
    have hlt : ∀ y ∈ pre, y.1 < a.1 := by
      rw [← hp, List.pairwise_append] at hw
      exact fun y hy => hw.2.2 y hy a (by simp)
    rw [List.foldl_cons]
    refine ih (pre ++ [a]) _ (by simpa using hp) hw ?_ ?_
    · split
      · simp
      · simp [hb]
    · split
      · next hc =>
        intro y hym
        rcases List.mem_append.1 hym with hy' | hy'
        · have hyb := (hy y hy').1
          refine ⟨h2 a ha best (hsub _ hb) y (hsub _ hy') (h1 a ha best (hsub _ hb) hc) hyb, fun hn => ?_⟩
          exact absurd hc (h2 best (hsub _ hb) y (hsub _ hy') a ha hyb hn)
        · rw [List.mem_singleton.1 hy']
          exact ⟨fun h => h1 a ha a ha h h, fun _ => le_refl _⟩
      · next hc =>
        intro y hym
        rcases List.mem_append.1 hym with hy' | hy'
        · exact hy y hy'
        · rw [List.mem_singleton.1 hy']
          exact ⟨hc, fun _ => (hlt best hb).le⟩

theorem maxLoop [LT V] [DecidableLT V] [LinearOrder K] (all : List (K × V))
    (h1 : ∀ x ∈ all, ∀ y ∈ all, x.2 < y.2 → ¬ y.2 < x.2)
    (h2 : ∀ x ∈ all, ∀ y ∈ all, ∀ z ∈ all, ¬ y.2 < x.2 → ¬ z.2 < y.2 → ¬ z.2 < x.2) :
    ∀ (rest pre : List (K × V)) (best : K × V), pre ++ rest = all → all.Pairwise (fun x y => x.1 < y.1) →
      best ∈ pre → (∀ y ∈ pre, ¬ best.2 < y.2 ∧ (¬ y.2 < best.2 → best.1 ≤ y.1)) →
      let r := rest.foldl (fun largest y => if largest.2 < y.2 then y else largest) best
      r ∈ all ∧ ∀ y ∈ all, ¬ r.2 < y.2 ∧ (¬ y.2 < r.2 → r.1 ≤ y.1) := by
  intro rest
  induction rest with
  | nil =>
    intro pre best hp hw hb hy
    rw [List.append_nil] at hp
    subst hp
    exact ⟨hb, hy⟩
  | cons a t ih =>
    intro pre best hp hw hb hy
    have hsub : ∀ y ∈ pre, y ∈ all := fun y hy => hp ▸ List.mem_append_left _ hy
    have ha : a ∈ all := hp ▸ List.mem_append_right _ (by simp)
    have hlt : ∀ y ∈ pre, y.1 < a.1 := by
      rw [← hp, List.pairwise_append] at hw
      exact fun y hy => hw.2.2 y hy a (by simp)
    rw [List.foldl_cons]
    refine ih (pre ++ [a]) _ (by simpa using hp) hw ?_ ?_
    · split
      · simp
      · simp [hb]
    · split
      · next hc =>
        intro y hym
        rcases List.mem_append.1 hym with hy' | hy'
        · have hyb := (hy y hy').1
          refine ⟨h2 y (hsub _ hy') best (hsub _ hb) a ha hyb (h1 best (hsub _ hb) a ha hc), fun hn => ?_⟩
          exact absurd hc (h2 a ha y (hsub _ hy') best (hsub _ hb) hn hyb)
        · rw [List.mem_singleton.1 hy']
          exact ⟨fun h => h1 a ha a ha h h, fun _ => le_refl _⟩
      · next hc =>
        intro y hym
        rcases List.mem_append.1 hym with hy' | hy'
        · exact hy y hy'
        · rw [List.mem_singleton.1 hy']
          exact ⟨hc, fun _ => (hlt best hb).le⟩

theorem mem_values_of_mem {m : SMap K V} {x : K × V} (h : x ∈ m) : x.2 ∈ m.values :=
  List.mem_map_of_mem h

/-! ## C97: extremes -/

/-- C97: `min` and `max` return the entry with the extreme value and, among those, the smallest key,
whenever `<` orders the values. -/
theorem C97_min_max [LT V] [DecidableLT V] [LinearOrder K] (m : SMap K V) (hw : SMap.WF m)
    (ho : ValuesOrdered m) (hne : m ≠ []) :
    (∃ kv, groupedMin m = .ok kv ∧ IsFirstMin m kv ∧
      groupedMinKey m = .ok kv.1 ∧ groupedMinValue m = .ok kv.2) ∧
    ∃ kv, groupedMax m = .ok kv ∧ IsFirstMax m kv ∧
      groupedMaxKey m = .ok kv.1 ∧ groupedMaxValue m = .ok kv.2 := by
  obtain ⟨a, t, rfl⟩ := List.exists_cons_of_ne_nil hne
  have h1 : ∀ x ∈ a :: t, ∀ y ∈ a :: t, x.2 < y.2 → ¬ y.2 < x.2 := fun x hx y hy =>
    ho.1 _ (mem_values_of_mem (m := a :: t) hx) _ (mem_values_of_mem (m := a :: t) hy)
  have h2 : ∀ x ∈ a :: t, ∀ y ∈ a :: t, ∀ z ∈ a :: t, ¬ y.2 < x.2 → ¬ z.2 < y.2 → ¬ z.2 < x.2 :=
    fun x hx y hy z hz => ho.2 _ (mem_values_of_mem (m := a :: t) hx) _
      (mem_values_of_mem (m := a :: t) hy) _ (mem_values_of_mem (m := a :: t) hz)
  have hirr : ¬ a.2 < a.2 := fun h => h1 a (by simp) a (by simp) h h
  have hmin := minLoop (a :: t) h1 h2 t [a] a rfl hw (by simp)
    (by simpa using hirr)
  have hmax := maxLoop (a :: t) h1 h2 t [a] a rfl hw (by simp)
    (by simpa using hirr)
  exact ⟨⟨_, rfl, ⟨SMap.find?_of_mem hw hmin.1, fun k v hk => hmin.2 (k, v) (SMap.mem_of_find? hk)⟩, rfl, rfl⟩,
    ⟨_, rfl, ⟨SMap.find?_of_mem hw hmax.1, fun k v hk => hmax.2 (k, v) (SMap.mem_of_find? hk)⟩, rfl, rfl⟩⟩

/-- C97: every reduction that needs an entry is undefined on an empty grouping. -/
theorem C97_empty [LT V] [DecidableLT V] :
    groupedMin ([] : SMap K V) = .error .ub ∧ groupedMax ([] : SMap K V) = .error .ub ∧
    groupedMinKey ([] : SMap K V) = .error .ub ∧ groupedMaxKey ([] : SMap K V) = .error .ub ∧
    groupedMinValue ([] : SMap K V) = .error .ub ∧ groupedMaxValue ([] : SMap K V) = .error .ub ∧
    groupedFirstValue ([] : SMap K V) = .error .ub ∧ groupedLastValue ([] : SMap K V) = .error .ub :=
  ⟨rfl, rfl, rfl, rfl, rfl, rfl, rfl, rfl⟩

/-- What `min` is meant to do for doubles: no value is smaller than the one returned, and the value
returned is a number when there is one. -/
def MinIsLeast : Prop :=
  ∀ m : SMap Nat Dbl, SMap.WF m → (∃ k x, m.find? k = some (.fin x)) →
    ∃ kv x, groupedMin m = .ok kv ∧ kv.2 = .fin x ∧ ∀ k y, m.find? k = some (.fin y) → x ≤ y

/-- C97 does not extend to NaN values: one under the smallest key is returned as the minimum. -/
theorem C97_min_nan_limit : ¬ MinIsLeast := by
  intro h
  have hw : SMap.WF ([(0, .nan), (1, .fin 2)] : SMap Nat Dbl) := by
    rw [SMap.wf_iff_keys]; show [0, 1].Pairwise (· < ·); decide
  obtain ⟨kv, x, hk, hx, -⟩ := h [(0, .nan), (1, .fin 2)] hw ⟨1, 2, by simp [SMap.find?]⟩
  simp only [groupedMin, List.foldl_cons, List.foldl_nil, Dbl.not_lt_nan, if_false] at hk
  cases hk
  simp at hx

/-- C97: `first_value` belongs to the smallest key and `last_value` to the largest. -/
theorem C97_first_last [LinearOrder K] (m : SMap K V) (hw : SMap.WF m) (hne : m ≠ []) :
    (∃ k v, groupedFirstValue m = .ok v ∧ m.find? k = some v ∧ ∀ k' ∈ m.keys, k ≤ k') ∧
    ∃ k v, groupedLastValue m = .ok v ∧ m.find? k = some v ∧ ∀ k' ∈ m.keys, k' ≤ k := by
  constructor
  · obtain ⟨a, t, rfl⟩ := List.exists_cons_of_ne_nil hne
    refine ⟨a.1, a.2, rfl, SMap.find?_of_mem hw (by simp), fun k' hk => ?_⟩
    obtain ⟨x, hx, rfl⟩ := List.mem_map.1 hk
    rcases List.mem_cons.1 hx with rfl | hx
    · exact le_refl _
    · exact ((SMap.wf_cons.1 hw).1 x hx).le
  · obtain ⟨init, l, rfl⟩ : ∃ init l, m = init ++ [l] :=
      ⟨m.dropLast, m.getLast hne, (List.dropLast_append_getLast hne).symm⟩
    refine ⟨l.1, l.2, by simp [groupedLastValue], SMap.find?_of_mem hw (by simp), fun k' hk => ?_⟩
    obtain ⟨x, hx, rfl⟩ := List.mem_map.1 hk
    have hw' : (init ++ [l]).Pairwise (fun x y => x.1 < y.1) := hw
    rw [List.pairwise_append] at hw'
    rcases List.mem_append.1 hx with hx | hx
    · exact (hw'.2.2 x hx l (by simp)).le
    · rw [List.mem_singleton.1 hx]

/-! ## C97: sums, means and tests -/

/-- C97: `all` and `any` of a grouping of flags. -/
theorem C97_all_any [LinearOrder K] (m : SMap K Bool) (hw : SMap.WF m) :
    (groupedAll m = true ↔ ∀ k v, m.find? k = some v → v = true) ∧
    (groupedAny m = true ↔ ∃ k, m.find? k = some true) := by
  obtain ⟨h1, h2, -⟩ := C70_all_any_contains m.values ([] : List Nat) 0
  constructor
  · unfold groupedAll
    rw [h1]
    constructor
    · intro h k v hk
      exact h v (mem_values_of_mem (SMap.mem_of_find? hk))
    · intro h v hv
      obtain ⟨x, hx, rfl⟩ := List.mem_map.1 hv
      exact h x.1 x.2 (SMap.find?_of_mem hw hx)
  · unfold groupedAny
    rw [h2]
    constructor
    · rintro ⟨v, hv, rfl⟩
      obtain ⟨x, hx, e⟩ := List.mem_map.1 hv
      exact ⟨x.1, by rw [← e]; exact SMap.find?_of_mem hw hx⟩
    · rintro ⟨k, hk⟩
      exact ⟨true, mem_values_of_mem (SMap.mem_of_find? hk), rfl⟩

theorem foldl_add_fin (xs : List (K × ℝ)) (s : ℝ) :
    (xs.map fun kv => (kv.1, Dbl.fin kv.2)).foldl (fun output kv => output + kv.2) (.fin s) =
      .fin (s + (xs.map Prod.snd).sum) := by
  induction xs generalizing s with
  | nil => simp
  | cons a t ih => simp [ih, add_assoc]

/-- C97: the sum of finite values. -/
theorem C97_sum (m : SMap K ℝ) :
    groupedSum (m.map fun kv => (kv.1, Dbl.fin kv.2)) = .fin m.values.sum := by
  have := foldl_add_fin m 0
  rw [zero_add] at this
  exact this

/-- C97: a sum of counts is exact modulo `2^64`. -/
theorem C97_sum_size (m : SMap K Nat) : groupedSumSize m = m.values.sum % 2 ^ 64 := by
  have : ∀ (l : List (K × Nat)) (s : Nat),
      l.foldl (fun output kv => (output + kv.2) % 2 ^ 64) (s % 2 ^ 64) =
        (s + (l.map Prod.snd).sum) % 2 ^ 64 := by
    intro l
    induction l with
    | nil => intro s; rfl
    | cons a t ih =>
      intro s
      rw [List.foldl_cons, Nat.mod_add_mod, ih, List.map_cons, List.sum_cons, Nat.add_assoc]
  have h := this m 0
  rw [Nat.zero_mod, Nat.zero_add] at h
  exact h

/-- C97: the counts of a grouping add up to the number of elements. -/
theorem C97_counts_sum [LinearOrder K] (g : α → K) (xs : List α) (h : xs.length < 2 ^ 64) :
    groupedSumSize (counts g xs) = xs.length := by
  rw [C97_sum_size, (C02_counts g xs).2.2, Nat.mod_eq_of_lt h]

theorem meanLoop (b : Build) (n : ℝ) (N : Nat) (hN : sizeToDouble b N = .ok n) (hn : n ≠ 0) :
    ∀ (xs : List (K × ℝ)) (s : ℝ),
      ((xs.map fun kv => (kv.1, Dbl.fin kv.2)).foldlM (fun output kv => do
        let n ← sizeToDouble b N
        pure (output + kv.2 / .fin n)) (.fin s) : Outcome Dbl) =
      .ok (.fin (s + (xs.map Prod.snd).sum / n)) := by
  intro xs
  induction xs with
  | nil => intro s; simp [except_pure]
  | cons a t ih =>
    intro s
    rw [List.map_cons, List.foldlM_cons, hN]
    simp only [except_ok_bind, except_pure, Dbl.fin_div hn, Dbl.fin_add]
    rw [hN] at ih
    simp only [except_ok_bind, except_pure] at ih
    rw [ih, List.map_cons, List.sum_cons, add_div, add_assoc]

/-- C97: the mean of finite values is their sum over their number. -/
theorem C97_mean (b : Build) (m : SMap K ℝ) (hne : m ≠ []) (hn : m.length ≤ 2 ^ 53) :
    groupedMean b (m.map fun kv => (kv.1, Dbl.fin kv.2)) = .ok (.fin (m.values.sum / m.length)) := by
  have hN := (C67_to_double b m.length 0).1 hn
  have h0 : (m.length : ℝ) ≠ 0 := by
    rw [Nat.cast_ne_zero]
    exact fun h => hne (List.eq_nil_of_length_eq_zero h)
  have := meanLoop b m.length m.length hN h0 m 0
  rw [zero_add] at this
  unfold groupedMean
  rw [List.length_map]
  exact this

/-- C97: the mean of counts is their sum over their number. -/
theorem C97_mean_size (b : Build) (m : SMap K Nat) (hne : m ≠ []) (hn : m.length ≤ 2 ^ 53)
    (hv : ∀ v ∈ m.values, v ≤ 2 ^ 53) :
    groupedMeanSize b m = .ok (.fin ((m.values.sum : ℝ) / m.length)) := by
  have hN := (C67_to_double b m.length 0).1 hn
  have h0 : (m.length : ℝ) ≠ 0 := by
    rw [Nat.cast_ne_zero]
    exact fun h => hne (List.eq_nil_of_length_eq_zero h)
  have key : ∀ (l : List (K × Nat)) (s : ℝ), (∀ x ∈ l, x.2 ≤ 2 ^ 53) →
      (l.foldlM (fun output kv => do
        let n ← sizeToDouble b m.length
        pure (output + .fin (castToDouble kv.2) / .fin n)) (.fin s) : Outcome Dbl) =
      .ok (.fin (s + ((l.map Prod.snd).sum : ℝ) / m.length)) := by
    intro l
    rw [hN]
    simp only [except_ok_bind, except_pure, Dbl.fin_div h0]
    induction l with
    | nil => intro s _; simp [except_pure]
    | cons a t ih =>
      intro s hl
      rw [List.foldlM_cons, castToDouble_exact _ (by simpa using hl a (by simp))]
      simp only [except_ok_bind, Int.cast_natCast, Dbl.fin_add]
      rw [ih _ fun x hx => hl x (List.mem_cons_of_mem _ hx), List.map_cons, List.sum_cons, Nat.cast_add,
        add_div, add_assoc]
  have := key m 0 fun x hx => hv _ (mem_values_of_mem hx)
  rw [zero_add] at this
  exact this

/-- C97: the mean of an empty grouping is zero, not an error. -/
theorem C97_mean_empty (b : Build) : groupedMean b ([] : SMap K Dbl) = .ok (.fin 0) ∧
    groupedMeanSize b ([] : SMap K Nat) = .ok (.fin 0) := ⟨rfl, rfl⟩

/-! ## C97: combining -/

theorem combineDoublesLoop_ok : ∀ (xs pre rest : List ℝ), rest.length = xs.length →
    combineDoublesLoop xs pre.length (pre ++ rest) = .ok ((pre ++ xs).length, pre ++ xs)
  | [], pre, rest, h => by
    rw [List.eq_nil_of_length_eq_zero h]; simp [combineDoublesLoop]
  | x :: xs, pre, rest, h => by
    obtain ⟨r, rest, rfl⟩ := List.exists_cons_of_length_eq_add_one h
    have w : writeRows (pre ++ r :: rest) pre.length [x] = .ok ((pre ++ [x]) ++ rest) := by
      unfold writeRows
      rw [if_pos (by simp)]
      simp [List.drop_append]
    unfold combineDoublesLoop
    rw [w, except_ok_bind]
    have := combineDoublesLoop_ok xs (pre ++ [x]) rest (by simpa using h)
    rw [List.length_append, List.length_singleton] at this
    rw [this]
    simp

/-- C97: combining doubles gives the values in the order of the keys, whatever the new memory held. -/
theorem C97_combine_doubles (b : Build) (uninit : Nat → ℝ) (m : SMap K ℝ) :
    combineDoubles b uninit m = .ok m.values := by
  have := combineDoublesLoop_ok m.values [] ((List.range m.length).map uninit) (by simp [SMap.values])
  simp only [List.nil_append, List.length_nil] at this
  unfold combineDoubles
  rw [this, except_ok_bind]
  simp [except_ok_bind, except_pure]

theorem combineVectorsLoop_ok : ∀ (xs : List (List ℝ)) (pre rest : List ℝ),
    rest.length = xs.flatten.length →
    combineVectorsLoop xs pre.length (pre ++ rest) = .ok ((pre ++ xs.flatten).length, pre ++ xs.flatten)
  | [], pre, rest, h => by
    rw [List.eq_nil_of_length_eq_zero h]; simp [combineVectorsLoop]
  | x :: xs, pre, rest, h => by
    unfold combineVectorsLoop
    rw [List.flatten_cons, List.length_append] at h
    by_cases hx : 0 < x.length
    · have w : writeRows (pre ++ rest) pre.length x = .ok ((pre ++ x) ++ rest.drop x.length) := by
        unfold writeRows
        rw [if_pos (by simp only [List.length_append]; omega)]
        simp [List.drop_append]
      rw [if_pos hx, w, except_ok_bind]
      have := combineVectorsLoop_ok xs (pre ++ x) (rest.drop x.length) (by rw [List.length_drop]; omega)
      rw [List.length_append] at this
      rw [this]
      simp
    · have hx0 : x = [] := List.eq_nil_of_length_eq_zero (by omega)
      subst hx0
      rw [if_neg hx, combineVectorsLoop_ok xs pre rest (by simpa using h)]
      simp

/-- C97: combining vectors appends them in the order of the keys, empty ones included. -/
theorem C97_combine_vectors [LinearOrder K] (b : Build) (uninit : Nat → ℝ) (m : SMap K (List ℝ))
    (hw : SMap.WF m) : combineVectors b uninit m = .ok m.values.flatten := by
  have ha : applyMap (fun _ x => x.length) m = m.map fun kv => (kv.1, kv.2.length) := by
    obtain ⟨h1, h2⟩ := C70_apply_map (fun _ (x : List ℝ) => x.length) m hw
    refine SMap.ext h1 (SMap.wf_map_values (fun kv => kv.2.length) hw) fun k => ?_
    rw [h2, SMap.find?_map_values m fun kv => kv.2.length]
  have hs : ∀ (l : List (K × List ℝ)) (s : Nat),
      (l.map fun kv => (kv.1, kv.2.length)).foldl (fun output kv => output + kv.2) s =
        s + (l.map Prod.snd).flatten.length := by
    intro l
    induction l with
    | nil => intro s; rfl
    | cons a t ih =>
      intro s
      rw [List.map_cons, List.foldl_cons, ih, List.map_cons, List.flatten_cons, List.length_append]
      omega
  have := combineVectorsLoop_ok m.values [] ((List.range m.values.flatten.length).map uninit) (by simp)
  simp only [List.nil_append, List.length_nil] at this
  unfold combineVectors
  have e : (applyMap (fun _ x => x.length) m).foldl (fun output kv => output + kv.2) 0 =
      m.values.flatten.length := by
    rw [ha, hs]; simp [SMap.values]
  simp only [e]
  rw [this, except_ok_bind]
  simp [except_ok_bind, except_pure]

/-! ## C97: applying to and joining groups -/

theorem emplaceLoop_ok [LinearOrder K] (s : K × V → Outcome β) (f : K × V → β) (m : SMap K V)
    (hw : SMap.WF m) (h : ∀ kv ∈ m, s kv = .ok (f kv)) :
    (m.foldlM (fun out kv => do let v ← s kv; pure (SMap.emplace out kv.1 v)) [] : Outcome (SMap K β)) =
      .ok (m.map fun kv => (kv.1, f kv)) := by
  have : ∀ (ix : SMap K V) (acc : SMap K β), (∀ kv ∈ ix, s kv = .ok (f kv)) →
      (ix.foldlM (fun out kv => do let v ← s kv; pure (SMap.emplace out kv.1 v)) acc :
        Outcome (SMap K β)) =
        .ok ((ix.map fun kv => (kv.1, f kv)).foldl (fun m kv => m.emplace kv.1 kv.2) acc) := by
    intro ix
    induction ix with
    | nil => intros; rfl
    | cons a t ih =>
      intro acc hs
      rw [List.foldlM_cons, hs a (by simp)]
      simp only [except_ok_bind, except_pure, List.map_cons, List.foldl_cons]
      exact ih _ fun kv hkv => hs kv (List.mem_cons_of_mem _ hkv)
  rw [this m [] h]
  congr 1
  exact SMap.ofList_of_wf (SMap.wf_map_values f hw)

theorem emplaceLoop_error [LT K] [DecidableLT K] [DecidableEq K] (s : K × V → Outcome β) (e : Fault)
    (m : SMap K V) (h : ∀ kv ∈ m, (∃ v, s kv = .ok v) ∨ s kv = .error e) (he : ∃ kv ∈ m, s kv = .error e) :
    (m.foldlM (fun out kv => do let v ← s kv; pure (SMap.emplace out kv.1 v)) [] : Outcome (SMap K β)) =
      .error e := by
  have : ∀ (ix : SMap K V) (acc : SMap K β), (∀ kv ∈ ix, (∃ v, s kv = .ok v) ∨ s kv = .error e) →
      (∃ kv ∈ ix, s kv = .error e) →
      (ix.foldlM (fun out kv => do let v ← s kv; pure (SMap.emplace out kv.1 v)) acc :
        Outcome (SMap K β)) = .error e := by
    intro ix
    induction ix with
    | nil => rintro acc - ⟨kv, hkv, -⟩; simp at hkv
    | cons a t ih =>
      intro acc hs he
      rw [List.foldlM_cons]
      rcases hs a (by simp) with ⟨v, hv⟩ | hv
      · rw [hv]
        simp only [except_ok_bind, except_pure]
        refine ih _ (fun kv hkv => hs kv (List.mem_cons_of_mem _ hkv)) ?_
        obtain ⟨kv, hkv, hk⟩ := he
        rcases List.mem_cons.1 hkv with rfl | hkv
        · rw [hv] at hk; simp at hk
        · exact ⟨kv, hkv, hk⟩
      · rw [hv]; rfl
  exact this m [] h he

theorem emplaceLoop_first_error [LT K] [DecidableLT K] [DecidableEq K] (s : K × V → Outcome β) (e : Fault)
    (pre post : SMap K V) (kv : K × V) (h : ∀ x ∈ pre, ∃ v, s x = .ok v) (he : s kv = .error e)
    (acc : SMap K β) :
    ((pre ++ kv :: post).foldlM (fun out kv => do let v ← s kv; pure (SMap.emplace out kv.1 v)) acc :
      Outcome (SMap K β)) = .error e := by
  induction pre generalizing acc with
  | nil => rw [List.nil_append, List.foldlM_cons, he]; rfl
  | cons a t ih =>
    obtain ⟨v, hv⟩ := h a (by simp)
    rw [List.cons_append, List.foldlM_cons, hv]
    simp only [except_ok_bind, except_pure]
    exact ih (fun x hx => h x (List.mem_cons_of_mem _ hx)) _

/-- C97: `index_apply` stops with the fault of the smallest key at which the function stops. -/
theorem C97_index_apply_fault [LinearOrder K] (f : K → List Nat → Outcome β) (indexer : SMap K (List Nat))
    (hw : SMap.WF indexer) (k : K) (is : List Nat) (e : Fault) (hk : indexer.find? k = some is)
    (he : f k is = .error e) (h : ∀ k' is', indexer.find? k' = some is' → k' < k → ∃ v, f k' is' = .ok v) :
    indexApply f indexer = .error e := by
  obtain ⟨pre, post, hp⟩ := List.append_of_mem (SMap.mem_of_find? hk)
  unfold indexApply
  have hw' : (pre ++ (k, is) :: post).Pairwise (fun x y => x.1 < y.1) := hp ▸ hw
  rw [hp]
  refine emplaceLoop_first_error (fun kv => f kv.1 kv.2) e pre post (k, is) (fun x hx => ?_) he []
  refine h x.1 x.2 (SMap.find?_of_mem hw (hp ▸ List.mem_append_left _ hx)) ?_
  exact (List.pairwise_append.1 hw').2.2 x hx (k, is) (by simp)

/-- C97: `index_apply` holds the result of the function for each group. -/
theorem C97_index_apply [LinearOrder K] (f : K → List Nat → Outcome β) (indexer : SMap K (List Nat))
    (hw : SMap.WF indexer) (r : K → List Nat → β) (h : ∀ k is, indexer.find? k = some is → f k is = .ok (r k is)) :
    ∃ m, indexApply f indexer = .ok m ∧ SMap.WF m ∧ ∀ k, m.find? k = (indexer.find? k).map (r k) := by
  refine ⟨_, emplaceLoop_ok (fun kv => f kv.1 kv.2) (fun kv => r kv.1 kv.2) indexer hw
    (fun kv hkv => h kv.1 kv.2 (SMap.find?_of_mem hw hkv)), SMap.wf_map_values (fun kv => r kv.1 kv.2) hw,
    fun k => ?_⟩
  rw [SMap.find?_map_values indexer fun kv => r kv.1 kv.2]

theorem find?_buildIndexer [LinearOrder K] (g : α → K) (xs : List α) (k : K) :
    (buildIndexer g xs).find? k =
      if (∃ x ∈ xs, g x = k) then some (positions 0 (xs.map g) k) else none := by
  rw [buildIndexer_eq, find?_buildKeys _ _ _ SMap.wf_nil]
  have hiff : positions 0 (xs.map g) k = [] ↔ ¬ ∃ x ∈ xs, g x = k := by
    rw [List.eq_nil_iff_forall_not_mem]
    simp only [mem_positions]
    constructor
    · rintro h ⟨x, hx, e⟩
      obtain ⟨i, hi⟩ := List.mem_iff_getElem?.1 hx
      exact h i ⟨i, by simp, by simp [hi, e]⟩
    · rintro h i ⟨m, -, hm⟩
      simp only [List.getElem?_map, Option.map_eq_some_iff] at hm
      obtain ⟨x, hx, e⟩ := hm
      exact h ⟨x, List.mem_of_getElem? hx, e⟩
  by_cases h : ∃ x ∈ xs, g x = k
  · rw [if_pos h, if_neg fun e => hiff.1 e h]; simp [SMap.find?]
  · rw [if_neg h, if_pos (hiff.2 h)]; simp [SMap.find?]

theorem filterMap_positions_zip [LinearOrder K] (g : α → K) (xs : List α) (ys : List β)
    (h : xs.length ≤ ys.length) (k : K) :
    (positions 0 (xs.map g) k).filterMap (ys[·]?) =
      ((xs.zip ys).filter fun p => decide (g p.1 = k)).map Prod.snd := by
  have hx : ∀ i ∈ positions 0 (xs.map g) k, i < xs.length := by
    intro i hi
    obtain ⟨m, rfl, hm⟩ := (mem_positions _ _ _ _).1 hi
    obtain ⟨h1, -⟩ := List.getElem?_eq_some_iff.1 hm
    simpa using h1
  have hy : ∀ i ∈ positions 0 (xs.map g) k, i < ys.length := fun i hi => (hx i hi).trans_le h
  have hz := zip_filterMap_get xs ys _ hx hy
  have hm : (xs.zip ys).map (fun p => g p.1) = xs.map g := by
    rw [show (fun p : α × β => g p.1) = g ∘ Prod.fst from rfl, ← List.map_map, List.map_fst_zip h]
  have hf := filterMap_positions (fun p : α × β => g p.1) [] (xs.zip ys) k
  rw [hm, List.nil_append, List.length_nil] at hf
  rw [← hf, ← hz, List.map_snd_zip]
  rw [length_filterMap_get _ _ hx, length_filterMap_get _ _ hy]

/-- What `with(other)` is meant to return: under each key, the elements with that key and the elements of
the other vector at the same places, both in their order. -/
def IsJoined [LinearOrder K] (g : α → K) (xs : List α) (ys : List β) (m : SMap K (List α × List β)) : Prop :=
  SMap.WF m ∧ ∀ k, m.find? k =
    if (∃ x ∈ xs, g x = k) then
      some ((xs.zip ys).filter fun p => decide (g p.1 = k)).unzip else none

theorem groupByWith_loop [LinearOrder K] (b : Build) (g : α → K) (xs : List α) (ys : List β) :
    ((buildIndexer g xs).foldlM (fun out kv => do
      let x ← subset b xs kv.2
      let y ← subset b ys kv.2
      pure (SMap.emplace out kv.1 (x, y))) [] : Outcome (SMap K (List α × List β))) =
    (buildIndexer g xs).foldlM (fun out kv => do
      let v ← (do let x ← subset b xs kv.2
                  let y ← subset b ys kv.2
                  pure (x, y))
      pure (SMap.emplace out kv.1 v)) [] := by
  congr 1
  funext out kv
  simp only [bind_assoc, pure_bind]

/-- C97: with as many elements on both sides, `with` pairs each group with the matching elements. -/
theorem C97_with [LinearOrder K] (b : Build) (g : α → K) (xs : List α) (ys : List β)
    (h : xs.length = ys.length) : ∃ m, groupByWith b g xs ys = .ok m ∧ IsJoined g xs ys m := by
  have hw : SMap.WF (buildIndexer g xs) := (C01_group_by_partitions g xs).1
  refine ⟨_, ?_, SMap.wf_map_values
    (fun kv : K × List Nat => (kv.2.filterMap (xs[·]?), kv.2.filterMap (ys[·]?))) hw, fun k => ?_⟩
  · unfold groupByWith
    rw [decide_eq_true h, albatrossAssert_true, except_ok_bind, groupByWith_loop]
    refine emplaceLoop_ok _ (fun kv : K × List Nat => (kv.2.filterMap (xs[·]?), kv.2.filterMap (ys[·]?))) _ hw
      fun kv hkv => ?_
    have hlt := buildIndexer_index_lt g xs hkv
    rw [subset_ok b xs kv.2 hlt, subset_ok b ys kv.2 (fun i hi => h ▸ hlt i hi)]
    rfl
  · rw [SMap.find?_map_values _ fun kv : K × List Nat => (kv.2.filterMap (xs[·]?), kv.2.filterMap (ys[·]?)),
      find?_buildIndexer]
    split
    · rw [Option.map_some, filterMap_positions_zip g xs ys h.le k]
      have hx := filterMap_positions_zip g xs xs le_rfl k
      have hx' := filterMap_positions g [] xs k
      rw [List.nil_append, List.length_nil] at hx'
      rw [hx', List.unzip_eq_map]
      congr 2
      have e : xs = (xs.zip ys).map Prod.fst := (List.map_fst_zip h.le).symm
      conv_lhs => rw [e]
      rw [List.filter_map]
      rfl
    · rfl

/-- C97: with different numbers of elements a debug build stops. -/
theorem C97_with_mismatch [LinearOrder K] (g : α → K) (xs : List α) (ys : List β)
    (h : xs.length ≠ ys.length) : groupByWith .debug g xs ys = .error .assertFail := by
  unfold groupByWith
  rw [decide_eq_false h]
  rfl

/-- C97: with `NDEBUG`, surplus elements of the other vector are ignored and missing ones are read out
of range. -/
theorem C97_with_ndebug [LinearOrder K] (g : α → K) (xs : List α) (ys : List β) :
    (xs.length ≤ ys.length → groupByWith .ndebug g xs ys = groupByWith .ndebug g xs (ys.take xs.length)) ∧
    (ys.length < xs.length → groupByWith .ndebug g xs ys = .error .ub) := by
  have hw : SMap.WF (buildIndexer g xs) := (C01_group_by_partitions g xs).1
  have hread : ∀ zs : List β, groupByWith .ndebug g xs zs = (buildIndexer g xs).foldlM (fun out kv => do
      let v ← (do let x ← subset .ndebug xs kv.2
                  let y ← subset .ndebug zs kv.2
                  pure (x, y))
      pure (SMap.emplace out kv.1 v)) [] := by
    intro zs
    unfold groupByWith
    rw [assert_ndebug, except_ok_bind,
      groupByWith_loop]
  constructor
  · intro h
    rw [hread, hread]
    rw [emplaceLoop_ok _ (fun kv : K × List Nat => (kv.2.filterMap (xs[·]?), kv.2.filterMap (ys[·]?))) _ hw,
      emplaceLoop_ok _ (fun kv : K × List Nat => (kv.2.filterMap (xs[·]?), kv.2.filterMap (ys[·]?))) _ hw]
    · intro kv hkv
      have hlt := buildIndexer_index_lt g xs hkv
      rw [subset_ok _ xs kv.2 hlt, subset_ok _ (ys.take xs.length) kv.2 (fun i hi => by
        rw [List.length_take, min_eq_left h]; exact hlt i hi)]
      show Except.ok (_, _) = Except.ok (_, _)
      congr 2
      refine List.filterMap_congr fun i hi => ?_
      rw [List.getElem?_take_of_lt (hlt i hi)]
    · intro kv hkv
      have hlt := buildIndexer_index_lt g xs hkv
      rw [subset_ok _ xs kv.2 hlt, subset_ok _ ys kv.2 (fun i hi => (hlt i hi).trans_le h)]
      rfl
  · intro h
    have hsub : ∀ is : List Nat, (∃ i ∈ is, ys.length ≤ i) → subset .ndebug ys is = .error .ub := by
      intro is
      induction is with
      | nil => rintro ⟨i, hi, -⟩; simp at hi
      | cons a t ih =>
        rintro ⟨i, hi, hle⟩
        unfold subset at ih ⊢
        rw [List.mapM_cons]
        rw [assert_ndebug, except_ok_bind]
        by_cases ha : a < ys.length
        · rw [vecGet_lt ha, except_ok_bind]
          have : ∃ i ∈ t, ys.length ≤ i := by
            rcases List.mem_cons.1 hi with rfl | hi
            · omega
            · exact ⟨i, hi, hle⟩
          rw [ih this]
          rfl
        · have : vecGet ys a = .error .ub := by
            unfold vecGet
            rw [List.getElem?_eq_none (by omega)]
          rw [this]
          rfl
    have hok : ∀ is : List Nat, (∀ i ∈ is, i < ys.length) → ∃ v, subset .ndebug ys is = .ok v :=
      fun is hi => ⟨_, subset_ok _ ys is hi⟩
    rw [hread]
    refine emplaceLoop_error _ .ub _ (fun kv hkv => ?_) ?_
    · have hlt := buildIndexer_index_lt g xs hkv
      rw [subset_ok _ xs kv.2 hlt, except_ok_bind]
      by_cases hb : ∃ i ∈ kv.2, ys.length ≤ i
      · rw [hsub _ hb]; exact Or.inr rfl
      · push Not at hb
        obtain ⟨v, hv⟩ := hok _ hb
        rw [hv]; exact Or.inl ⟨_, rfl⟩
    · have hi : ys.length < xs.length := h
      have hf := find?_buildIndexer g xs (g xs[ys.length])
      rw [if_pos ⟨xs[ys.length], List.getElem_mem _, rfl⟩] at hf
      have hkv := SMap.mem_of_find? hf
      refine ⟨_, hkv, ?_⟩
      rw [subset_ok _ xs _ (buildIndexer_index_lt g xs hkv), except_ok_bind, hsub]
      · rfl
      · refine ⟨ys.length, (mem_positions _ _ _ _).2 ⟨ys.length, by simp, ?_⟩, le_rfl⟩
        simp [hi]

/-- C97: `with` a map pairs each group with the entry of its key, when every key has one. -/
theorem C97_with_map [LinearOrder K] (b : Build) (g : α → K) (xs : List α) (other : SMap K V)
    (hl : other.length = groupBySize g xs) (r : K → V) (h : ∀ x ∈ xs, other.find? (g x) = some (r (g x))) :
    ∃ m, groupByWithMap b g xs other = .ok m ∧ SMap.WF m ∧ ∀ k, m.find? k =
      if (∃ x ∈ xs, g x = k) then some (xs.filter fun x => decide (g x = k), r k) else none := by
  have hw : SMap.WF (buildIndexer g xs) := (C01_group_by_partitions g xs).1
  refine ⟨_, ?_, SMap.wf_map_values (fun kv : K × List Nat => (kv.2.filterMap (xs[·]?), r kv.1)) hw, fun k => ?_⟩
  · unfold groupByWithMap
    rw [show decide (other.length = (buildIndexer g xs).length) = true from decide_eq_true hl,
      albatrossAssert_true, except_ok_bind]
    have e := emplaceLoop_ok (fun kv : K × List Nat => (do
        let x ← subset b xs kv.2
        let y ← other.at? kv.1
        pure (x, y) : Outcome (List α × V))) (fun kv => (kv.2.filterMap (xs[·]?), r kv.1)) _ hw ?_
    · rw [← e]
      congr 1
      funext out kv
      simp only [bind_assoc, pure_bind]
    · intro kv hkv
      have hf := find?_buildIndexer g xs kv.1
      rw [SMap.find?_of_mem hw hkv] at hf
      have hx : ∃ x ∈ xs, g x = kv.1 := by
        by_contra hn
        rw [if_neg hn] at hf
        simp at hf
      obtain ⟨x, hx, e⟩ := hx
      have ho := h x hx
      rw [e] at ho
      simp only [subset_ok b xs kv.2 (buildIndexer_index_lt g xs hkv), SMap.at?, ho, except_ok_bind, except_pure]
  · rw [SMap.find?_map_values _ fun kv : K × List Nat => (kv.2.filterMap (xs[·]?), r kv.1), find?_buildIndexer]
    split
    · have := filterMap_positions g [] xs k
      rw [List.nil_append, List.length_nil] at this
      rw [Option.map_some, this]
    · rfl

/-- C97: `with` a map stops when the map has another size, in a debug build. -/
theorem C97_with_map_size [LinearOrder K] (g : α → K) (xs : List α) (other : SMap K V)
    (hl : other.length ≠ groupBySize g xs) : groupByWithMap .debug g xs other = .error .assertFail := by
  unfold groupByWithMap
  rw [show decide (other.length = (buildIndexer g xs).length) = false from decide_eq_false hl]
  rfl

/-- C97: `with` a map throws when the map has no entry for the key of an element, in an `NDEBUG` build
or with a map of the right size. -/
theorem C97_with_map_missing [LinearOrder K] (b : Build) (g : α → K) (xs : List α) (other : SMap K V)
    (hl : b = .ndebug ∨ other.length = groupBySize g xs) (x : α) (hx : x ∈ xs)
    (hm : other.find? (g x) = none) : groupByWithMap b g xs other = .error .thrown := by
  have ha : albatrossAssert b (decide (other.length = (buildIndexer g xs).length)) = .ok () := by
    rcases hl with rfl | hl
    · exact assert_ndebug _
    · rw [show decide (other.length = (buildIndexer g xs).length) = true from decide_eq_true hl,
        albatrossAssert_true]
  unfold groupByWithMap
  rw [ha, except_ok_bind]
  have e := emplaceLoop_error (fun kv : K × List Nat => (do
        let x ← subset b xs kv.2
        let y ← other.at? kv.1
        pure (x, y) : Outcome (List α × V))) .thrown (buildIndexer g xs) ?_ ?_
  · rw [← e]
    congr 1
    funext out kv
    simp only [bind_assoc, pure_bind]
  · intro kv hkv
    rw [subset_ok b xs kv.2 (buildIndexer_index_lt g xs hkv), except_ok_bind]
    cases ho : other.find? kv.1 with
    | none => exact Or.inr (by simp only [SMap.at?, ho]; rfl)
    | some v => exact Or.inl ⟨_, by simp only [SMap.at?, ho]; rfl⟩
  · have hf := find?_buildIndexer g xs (g x)
    rw [if_pos ⟨x, hx, rfl⟩] at hf
    have hkv := SMap.mem_of_find? hf
    refine ⟨_, hkv, ?_⟩
    rw [subset_ok b xs _ (buildIndexer_index_lt g xs hkv), except_ok_bind]
    simp only [SMap.at?, hm]
    rfl

/-! ## C97: keys, size, apply and filter -/

/-- C97: `keys` lists the keys of the elements in increasing order and `size` counts them. -/
theorem C97_keys_size [LinearOrder K] (g : α → K) (xs : List α) :
    groupByKeys g xs = setOfList (xs.map g) ∧ (groupByKeys g xs).Pairwise (· < ·) ∧
    (∀ k, k ∈ groupByKeys g xs ↔ ∃ x ∈ xs, g x = k) ∧ groupBySize g xs = (groupByKeys g xs).length := by
  have hw : SMap.WF (buildIndexer g xs) := (C01_group_by_partitions g xs).1
  have hs : (groupByKeys g xs).Pairwise (· < ·) := SMap.wf_iff_keys.1 hw
  have hm : ∀ k, k ∈ groupByKeys g xs ↔ ∃ x ∈ xs, g x = k := by
    intro k
    unfold groupByKeys
    rw [SMap.mem_keys, find?_buildIndexer]
    by_cases h : ∃ x ∈ xs, g x = k
    · simp only [if_pos h, Option.isSome_some, true_iff]; exact h
    · simp only [if_neg h, Option.isSome_none, Bool.false_eq_true, false_iff]; exact h
  refine ⟨sorted_ext hs (sorted_setOfList _) fun k => ?_, hs, hm, by simp [groupBySize, groupByKeys, SMap.keys]⟩
  rw [hm, mem_setOfList, List.mem_map]

/-- C97: `apply` holds, for each key, the function of the key and its elements. -/
theorem C97_apply [LinearOrder K] (b : Build) (g : α → K) (xs : List α) (f : K → List α → β) :
    ∃ m, groupByApply b g xs f = .ok m ∧ SMap.WF m ∧ ∀ k, m.find? k =
      if (∃ x ∈ xs, g x = k) then some (f k (xs.filter fun x => decide (g x = k))) else none := by
  obtain ⟨gs, h, hw, hf⟩ := C02_groups b g xs
  obtain ⟨h1, h2⟩ := C70_apply_map f gs hw
  refine ⟨applyMap f gs, by unfold groupByApply; rw [h]; rfl, h1, fun k => ?_⟩
  rw [h2, hf]
  split <;> rfl

/-- C97: `filter` keeps exactly the groups the function accepts. -/
theorem C97_filter [LinearOrder K] (b : Build) (g : α → K) (xs : List α) (f : K → List α → Bool) :
    ∃ m, groupByFilter b g xs f = .ok m ∧ SMap.WF m ∧ ∀ k v, m.find? k = some v ↔
      (∃ x ∈ xs, g x = k) ∧ v = (xs.filter fun x => decide (g x = k)) ∧ f k v = true := by
  obtain ⟨gs, h, hw, hf⟩ := C02_groups b g xs
  obtain ⟨h1, h2⟩ := C70_filter_map f gs hw
  refine ⟨filterMap f gs, by unfold groupByFilter; rw [h]; rfl, h1, fun k v => ?_⟩
  rw [h2, hf]
  by_cases hk : ∃ x ∈ xs, g x = k
  · rw [if_pos hk, Option.some.injEq]
    constructor
    · rintro ⟨rfl, hv⟩; exact ⟨hk, rfl, hv⟩
    · rintro ⟨-, rfl, hv⟩; exact ⟨rfl, hv⟩
  · rw [if_neg hk]
    simp [hk]

/-! ## Non-vacuity -/

example : SMap.WF ([(1, 5), (2, 3), (4, 3)] : SMap Nat Nat) ∧
    groupedMin ([(1, 5), (2, 3), (4, 3)] : SMap Nat Nat) = .ok (2, 3) ∧
    groupedMax ([(1, 5), (2, 3), (4, 5)] : SMap Nat Nat) = .ok (1, 5) :=
  ⟨by rw [SMap.wf_iff_keys]; show [1, 2, 4].Pairwise (· < ·); decide, rfl, rfl⟩

example : ValuesOrdered ([(1, .ninf), (2, .fin 3), (4, .pinf)] : SMap Nat Dbl) :=
  valuesOrdered_of_dbl _ (by simp [SMap.values])

example : groupedFirstValue ([(1, 5), (2, 3)] : SMap Nat Nat) = .ok 5 ∧
    groupedLastValue ([(1, 5), (2, 3)] : SMap Nat Nat) = .ok 3 := ⟨rfl, rfl⟩

example : groupedAll ([(1, true), (2, false)] : SMap Nat Bool) = false ∧
    groupedAny ([(1, true), (2, false)] : SMap Nat Bool) = true := ⟨rfl, rfl⟩

example (b : Build) : groupedMean b ([(1, .fin 2), (5, .fin 4)] : SMap Nat Dbl) = .ok (.fin 3) := by
  have := C97_mean b ([(1, 2), (5, 4)] : SMap Nat ℝ) (by simp) (by norm_num)
  have e : (List.sum (SMap.values ([(1, 2), (5, 4)] : SMap Nat ℝ))) / (2 : ℕ) = 3 := by
    simp [SMap.values]; norm_num
  exact this.trans (by rw [show List.length ([(1, 2), (5, 4)] : SMap Nat ℝ) = 2 from rfl, e])

example : groupedSumSize (counts (fun n : Nat => n % 3) [5, 1, 4, 2]) = 4 :=
  C97_counts_sum _ _ (by norm_num)

example (b : Build) : groupByWith b (fun n : Nat => n % 2) [1, 2, 3] ["a", "b", "c"] =
    .ok [(0, ([2], ["b"])), (1, ([1, 3], ["a", "c"]))] := by
  cases b <;> rfl

example : groupByWith .ndebug (fun n : Nat => n % 2) [1, 2, 3] ["a", "b"] = .error .ub :=
  (C97_with_ndebug _ _ _).2 (by decide)

example (b : Build) : groupByWithMap b (fun n : Nat => n % 2) [1, 2, 3] [(0, "even"), (1, "odd")] =
    .ok [(0, ([2], "even")), (1, ([1, 3], "odd"))] := by
  cases b <;> rfl

example (b : Build) : groupByWithMap b (fun n : Nat => n % 2) [1, 2, 3] [(0, "even"), (7, "odd")] =
    .error .thrown := by
  cases b <;> rfl

example (b : Build) (u : Nat → ℝ) : combineVectors b u ([(0, [1]), (1, []), (2, [2, 3])] : SMap Nat (List ℝ)) =
    .ok [1, 2, 3] :=
  C97_combine_vectors b u _ (by rw [SMap.wf_iff_keys]; show [0, 1, 2].Pairwise (· < ·); decide)

example : indexApply (fun k is => if k = 1 then .error .thrown else .ok is.length)
    ([(0, [1, 2]), (1, [0])] : SMap Nat (List Nat)) = .error .thrown := rfl

end Albatross
