import Verif.Parameters
import Verif.IndexingLemmas
import Verif.MapUtilsProps

/-! # Parameters: C23, C24, C26, C72 -/

namespace Albatross

/-! ## Specification vocabulary -/

/-- The non-fixed entries in key order. -/
def tunable (params : ParameterStore) : List (String × Parameter) :=
  params.filter fun kv => !kv.2.isFixed

/-- The scale on which a parameter is presented to an optimizer. -/
def toScale (f : Dbl → Dbl) (p : Parameter) (v : Dbl) : Dbl :=
  if p.prior.isLogScale then f v else v

/-- `y` is `x` moved to the closest end of `[lo, hi]` when it lies outside. -/
def IsClamp (lo hi x y : Dbl) : Prop :=
  (x < lo → y = lo) ∧ (¬ x < lo → hi < x → y = hi) ∧ (¬ x < lo → ¬ hi < x → y = x)

/-! ## Lemmas -/

theorem alter_at {K V : Type} [LinearOrder K] (f : Option V → V) (k : K) (v : V)
    (pre rest : SMap K V) (h : SMap.WF (pre ++ (k, v) :: rest)) :
    SMap.alter f k (pre ++ (k, v) :: rest) = pre ++ (k, f (some v)) :: rest := by
  induction pre with
  | nil => simp [SMap.alter]
  | cons a t ih =>
    obtain ⟨k', v'⟩ := a
    have hlt : k' < k := (SMap.wf_cons.1 h).1 (k, v) (by simp)
    simp only [List.cons_append, SMap.alter, hlt.ne', hlt.not_gt, if_false]
    rw [ih (SMap.WF.tail h)]

theorem wf_replace {K V : Type} [LinearOrder K] (k : K) (v w : V) (pre rest : SMap K V)
    (h : SMap.WF (pre ++ (k, v) :: rest)) : SMap.WF (pre ++ (k, w) :: rest) := by
  rw [SMap.wf_iff_keys] at h ⊢
  simpa [SMap.keys] using h

/-- What one non-fixed parameter is set to. -/
noncomputable def tunedValue (ex : Dbl → Dbl) (fb : Bool) (p : Parameter) (v : Dbl) : Dbl :=
  if fb then ensureWithinBounds p (toScale ex p v) else toScale ex p v

/-- The list produced by the loop, or `none` when the vector is too short. -/
noncomputable def assigned (ex : Dbl → Dbl) (fb : Bool) :
    List (String × Parameter) → List Dbl → Option (List (String × Parameter))
  | [], _ => some []
  | kv :: rest, xs =>
    if kv.2.isFixed then (assigned ex fb rest xs).map (kv :: ·)
    else match xs with
      | [] => none
      | v :: xs => (assigned ex fb rest xs).map
          ((kv.1, { kv.2 with value := tunedValue ex fb kv.2 v }) :: ·)

theorem setTunableLoop_eq (ex : Dbl → Dbl) (x : List Dbl) (fb : Bool)
    (rest pre : ParameterStore) (i : Nat) (h : SMap.WF (pre ++ rest)) :
    setTunableLoop ex x fb rest (pre ++ rest) i =
      match assigned ex fb rest (x.drop i) with
      | some l => .ok (pre ++ l, i + (tunable rest).length)
      | none => .error .ub := by
  induction rest generalizing pre i with
  | nil => simp [setTunableLoop, assigned, tunable]
  | cons kv rest ih =>
    obtain ⟨k, p⟩ := kv
    by_cases hf : p.isFixed = true
    · have e : pre ++ (k, p) :: rest = (pre ++ [(k, p)]) ++ rest := by simp
      simp only [setTunableLoop, assigned, hf, Bool.not_true, Bool.false_eq_true, if_false, if_true]
      rw [e, ih _ _ (by simpa using h)]
      cases hh : assigned ex fb rest (x.drop i) <;> simp [tunable, hf]
    · have hf' : p.isFixed = false := by simpa using hf
      simp only [setTunableLoop, assigned, hf', Bool.not_false, if_true]
      by_cases hi : i < x.length
      · rw [vecGet_lt hi, List.drop_eq_getElem_cons hi]
        simp only [except_ok_bind, setValue]
        rw [alter_at _ _ _ _ _ h]
        have e : ∀ w : Dbl, pre ++ (k, { p with value := w }) :: rest =
            (pre ++ [(k, { p with value := w })]) ++ rest := by simp
        rw [e, ih _ _ (by simpa using wf_replace k p _ pre rest h)]
        have et : (if fb = true then ensureWithinBounds p (if p.prior.isLogScale = true then ex x[i]
            else x[i]) else if p.prior.isLogScale = true then ex x[i] else x[i]) =
            tunedValue ex fb p x[i] := rfl
        rw [et]
        cases hh : assigned ex fb rest (x.drop (i + 1))
        · simp
        · simp [tunable, hf']; omega
      · have hd : x.drop i = [] := List.drop_eq_nil_of_le (by omega)
        rw [hd]
        have : vecGet x i = .error .ub := by
          unfold vecGet; rw [List.getElem?_eq_none (by omega)]
        simp [this]

theorem setTunable_eq (ex : Dbl → Dbl) (b : Build) (params : ParameterStore) (x : List Dbl)
    (fb : Bool) (h : SMap.WF params) :
    setTunableParamsValues ex b params x fb =
      match assigned ex fb params x with
      | some l => (albatrossAssert b (x.length == (tunable params).length)).bind fun _ => .ok l
      | none => .error .ub := by
  unfold setTunableParamsValues
  have := setTunableLoop_eq ex x fb params [] 0 (by simpa using h)
  simp only [List.nil_append, List.drop_zero, Nat.zero_add] at this
  rw [this]
  cases assigned ex fb params x <;> rfl

theorem assigned_isSome (ex : Dbl → Dbl) (fb : Bool) (ps : ParameterStore) (xs : List Dbl) :
    (assigned ex fb ps xs).isSome ↔ (tunable ps).length ≤ xs.length := by
  induction ps generalizing xs with
  | nil => simp [assigned, tunable]
  | cons kv ps ih =>
    by_cases hf : kv.2.isFixed = true
    · simp only [assigned, hf, if_true, Option.isSome_map, ih]
      simp [tunable, hf]
    · have hf' : kv.2.isFixed = false := by simpa using hf
      cases xs with
      | nil => simp [assigned, hf', tunable]
      | cons v xs => simp [assigned, hf', tunable] at ih ⊢; exact ih xs

theorem assigned_spec (ex : Dbl → Dbl) (fb : Bool) (ps : ParameterStore) (xs : List Dbl)
    (l : ParameterStore) (h : assigned ex fb ps xs = some l) :
    l.keys = ps.keys ∧ (∀ kv ∈ ps, kv.2.isFixed = true → kv ∈ l) ∧
    (∀ (j : Nat) (name : String) (p : Parameter) (v : Dbl), (tunable ps)[j]? = some (name, p) →
      xs[j]? = some v → (name, { p with value := tunedValue ex fb p v }) ∈ l) := by
  induction ps generalizing xs l with
  | nil => simp [assigned] at h; subst h; simp [tunable, SMap.keys]
  | cons kv ps ih =>
    obtain ⟨k, p⟩ := kv
    by_cases hf : p.isFixed = true
    · simp only [assigned, hf, if_true, Option.map_eq_some_iff] at h
      obtain ⟨l', h', rfl⟩ := h
      obtain ⟨h1, h2, h3⟩ := ih _ _ h'
      refine ⟨by simpa [SMap.keys] using h1, ?_, ?_⟩
      · intro kv hkv hfix
        rcases List.mem_cons.1 hkv with rfl | hkv
        · simp
        · exact List.mem_cons_of_mem _ (h2 kv hkv hfix)
      · intro j name q v hj hv
        have : tunable ((k, p) :: ps) = tunable ps := by simp [tunable, hf]
        rw [this] at hj
        exact List.mem_cons_of_mem _ (h3 j name q v hj hv)
    · have hf' : p.isFixed = false := by simpa using hf
      cases xs with
      | nil => simp [assigned, hf'] at h
      | cons v₀ xs =>
        simp only [assigned, hf', Bool.false_eq_true, if_false, Option.map_eq_some_iff] at h
        obtain ⟨l', h', rfl⟩ := h
        obtain ⟨h1, h2, h3⟩ := ih _ _ h'
        refine ⟨by simpa [SMap.keys] using h1, ?_, ?_⟩
        · intro kv hkv hfix
          rcases List.mem_cons.1 hkv with rfl | hkv
          · simp [hf'] at hfix
          · exact List.mem_cons_of_mem _ (h2 kv hkv hfix)
        · intro j name q v hj hv
          have ht : tunable ((k, p) :: ps) = (k, p) :: tunable ps := by simp [tunable, hf']
          rw [ht] at hj
          cases j with
          | zero =>
            simp at hj hv
            obtain ⟨rfl, rfl⟩ := hj
            subst hv; simp
          | succ j => exact List.mem_cons_of_mem _ (h3 j name q v (by simpa using hj) (by simpa using hv))

theorem clamp_isClamp (p : Parameter) (v : Dbl) :
    IsClamp p.prior.lower p.prior.upper v (ensureWithinBounds p v) := by
  unfold ensureWithinBounds IsClamp
  refine ⟨fun h => by rw [if_pos h], fun h h' => by rw [if_neg h, if_pos h'], fun h h' => by
    rw [if_neg h, if_neg h']⟩

theorem getTunableStep_fixed (lg : Dbl → Dbl) (b : Build) (out : TunableParameters)
    (kv : String × Parameter) (h : kv.2.isFixed = true) : getTunableStep lg b out kv = .ok out := by
  simp [getTunableStep, h]

theorem getTunableStep_ok (lg : Dbl → Dbl) (b : Build) (out : TunableParameters)
    (kv : String × Parameter) (h : kv.2.isFixed = false) (h1 : ¬ kv.2.value < kv.2.prior.lower)
    (h2 : ¬ kv.2.prior.upper < kv.2.value) :
    getTunableStep lg b out kv = .ok ⟨out.names ++ [kv.1],
      out.values ++ [toScale lg kv.2 kv.2.value],
      out.lowerBounds ++ [toScale lg kv.2 kv.2.prior.lower],
      out.upperBounds ++ [toScale lg kv.2 kv.2.prior.upper]⟩ := by
  simp only [getTunableStep, h, Bool.not_false, if_true, h1, h2, if_false, toScale]
  cases kv.2.prior.isLogScale <;> rfl

theorem getTunable_loop (lg : Dbl → Dbl) (b : Build) (ps : List (String × Parameter))
    (out : TunableParameters)
    (hin : ∀ kv ∈ tunable ps, ¬ kv.2.value < kv.2.prior.lower ∧ ¬ kv.2.prior.upper < kv.2.value) :
    ps.foldlM (getTunableStep lg b) out = .ok ⟨out.names ++ (tunable ps).map Prod.fst,
      out.values ++ (tunable ps).map (fun kv => toScale lg kv.2 kv.2.value),
      out.lowerBounds ++ (tunable ps).map (fun kv => toScale lg kv.2 kv.2.prior.lower),
      out.upperBounds ++ (tunable ps).map (fun kv => toScale lg kv.2 kv.2.prior.upper)⟩ := by
  induction ps generalizing out with
  | nil => simp [tunable]
  | cons kv ps ih =>
    rw [List.foldlM_cons]
    by_cases hf : kv.2.isFixed = true
    · have ht : tunable (kv :: ps) = tunable ps := by simp [tunable, hf]
      rw [getTunableStep_fixed _ _ _ _ hf, except_ok_bind, ht]
      exact ih out (by rwa [ht] at hin)
    · have hf' : kv.2.isFixed = false := by simpa using hf
      have ht : tunable (kv :: ps) = kv :: tunable ps := by simp [tunable, hf']
      rw [ht] at hin
      obtain ⟨a1, a2⟩ := hin kv (by simp)
      rw [getTunableStep_ok _ _ _ _ hf' a1 a2, except_ok_bind,
        ih _ fun x hx => hin x (List.mem_cons_of_mem _ hx), ht]
      simp

/-! ## C23 -/

/-- `get_tunable_parameters` lists the non-fixed parameters in key order, with value and bounds on
the optimizer's scale, and no assertion fires, when every one of them is within its bounds. -/
theorem C23_get_tunable (lg : Dbl → Dbl) (b : Build) (params : ParameterStore)
    (hin : ∀ kv ∈ tunable params, kv.2.prior.lower ≤ kv.2.value ∧ kv.2.value ≤ kv.2.prior.upper) :
    getTunableParameters lg b params = .ok
      { names := (tunable params).map Prod.fst
        values := (tunable params).map fun kv => toScale lg kv.2 kv.2.value
        lowerBounds := (tunable params).map fun kv => toScale lg kv.2 kv.2.prior.lower
        upperBounds := (tunable params).map fun kv => toScale lg kv.2 kv.2.prior.upper } := by
  have := getTunable_loop lg b params TunableParameters.empty fun kv hkv =>
    ⟨Dbl.not_lt_of_le (hin kv hkv).1, Dbl.not_lt_of_le (hin kv hkv).2⟩
  simpa [getTunableParameters, TunableParameters.empty] using this

/-- In a debug build, a non-fixed parameter outside its bounds makes `get_tunable_parameters`
abort. -/
theorem C23_get_tunable_out_of_bounds (lg : Dbl → Dbl) (params : ParameterStore)
    (hout : ∃ kv ∈ tunable params, kv.2.value < kv.2.prior.lower ∨ kv.2.prior.upper < kv.2.value) :
    getTunableParameters lg .debug params = .error .assertFail := by
  unfold getTunableParameters
  generalize TunableParameters.empty = out
  induction params generalizing out with
  | nil => simp [tunable] at hout
  | cons kv ps ih =>
    rw [List.foldlM_cons]
    by_cases hf : kv.2.isFixed = true
    · have ht : tunable (kv :: ps) = tunable ps := by simp [tunable, hf]
      rw [ht] at hout
      rw [getTunableStep_fixed _ _ _ _ hf, except_ok_bind]
      exact ih hout out
    · have hf' : kv.2.isFixed = false := by simpa using hf
      have ht : tunable (kv :: ps) = kv :: tunable ps := by simp [tunable, hf']
      rw [ht] at hout
      by_cases h1 : kv.2.value < kv.2.prior.lower
      · simp [getTunableStep, hf', h1, albatrossAssert]
      · by_cases h2 : kv.2.prior.upper < kv.2.value
        · simp [getTunableStep, hf', h1, h2, albatrossAssert]
        · rw [getTunableStep_ok _ _ _ _ hf' h1 h2, except_ok_bind]
          refine ih ?_ _
          obtain ⟨x, hx, h⟩ := hout
          rcases List.mem_cons.1 hx with rfl | hx
          · exact absurd h (by simp [h1, h2])
          · exact ⟨x, hx, h⟩

theorem assigned_self (lg ex : Dbl → Dbl) (fb : Bool) (ps : ParameterStore)
    (h : ∀ kv ∈ tunable ps, tunedValue ex fb kv.2 (toScale lg kv.2 kv.2.value) = kv.2.value) :
    assigned ex fb ps ((tunable ps).map fun kv => toScale lg kv.2 kv.2.value) = some ps := by
  induction ps with
  | nil => simp [assigned]
  | cons kv ps ih =>
    by_cases hf : kv.2.isFixed = true
    · have ht : tunable (kv :: ps) = tunable ps := by simp [tunable, hf]
      rw [ht] at h ⊢
      simp [assigned, hf, ih h]
    · have hf' : kv.2.isFixed = false := by simpa using hf
      have ht : tunable (kv :: ps) = kv :: tunable ps := by simp [tunable, hf']
      rw [ht] at h ⊢
      have h0 := h kv (by simp)
      simp only [assigned, hf', List.map_cons, h0]
      simp [ih fun x hx => h x (List.mem_cons_of_mem _ hx)]

/-- Reading the tunable values and setting them back changes nothing, with or without bounds
enforcement, in either build: exactly for parameters on the linear scale, and for log scale
parameters as long as the platform's `exp` inverts its `log` at the stored value. -/
theorem C23_round_trip (lg ex : Dbl → Dbl) (b : Build) (fb : Bool) (params : ParameterStore)
    (hw : SMap.WF params)
    (hin : ∀ kv ∈ tunable params, kv.2.prior.lower ≤ kv.2.value ∧ kv.2.value ≤ kv.2.prior.upper)
    (hlog : ∀ kv ∈ tunable params, kv.2.prior.isLogScale = true → ex (lg kv.2.value) = kv.2.value) :
    (do let t ← getTunableParameters lg b params
        setTunableParamsValues ex b params t.values fb) = .ok params := by
  rw [C23_get_tunable lg b params hin, except_ok_bind, setTunable_eq _ _ _ _ _ hw, assigned_self]
  · simp [Except.bind]
  · intro kv hkv
    have hs : toScale ex kv.2 (toScale lg kv.2 kv.2.value) = kv.2.value := by
      unfold toScale
      by_cases hl : kv.2.prior.isLogScale = true
      · simp [hl, hlog kv hkv hl]
      · simp [hl]
    have hb := hin kv hkv
    unfold tunedValue
    rw [hs]
    cases fb
    · rfl
    · simp [ensureWithinBounds, Dbl.not_lt_of_le hb.1, Dbl.not_lt_of_le hb.2]

/-- The round trip with the real exponential and logarithm needs no extra assumption: the lower
bound of a log scale prior is positive (its constructor asserts it). -/
theorem C23_round_trip_real (b : Build) (fb : Bool) (params : ParameterStore) (hw : SMap.WF params)
    (hin : ∀ kv ∈ tunable params, kv.2.prior.lower ≤ kv.2.value ∧ kv.2.value ≤ kv.2.prior.upper)
    (hpos : ∀ kv ∈ tunable params, kv.2.prior.isLogScale = true → Dbl.fin 0 < kv.2.prior.lower) :
    (do let t ← getTunableParameters Dbl.log b params
        setTunableParamsValues Dbl.exp b params t.values fb) = .ok params :=
  C23_round_trip _ _ b fb params hw hin fun kv hkv hl =>
    Dbl.exp_log (Dbl.le_trans (Dbl.le_of_lt (hpos kv hkv hl)) (hin kv hkv).1)

/-- A log scale uniform prior constructed in a debug build satisfies the positivity used above. -/
theorem C23_log_scale_positive (l u : Dbl) (p : Prior)
    (h : Prior.mkLogScaleUniform .debug l u = .ok p) : p = .logScaleUniform l u ∧ Dbl.fin 0 < l := by
  unfold Prior.mkLogScaleUniform at h
  by_cases h1 : l < u <;> by_cases h2 : Dbl.fin 0 < u <;> by_cases h3 : Dbl.fin 0 < l <;>
    simp [h1, h2, h3, albatrossAssert] at h ⊢
  exact h.symm

/-! ## C24 -/

/-- Setting the tunable values from a vector of the right length: same keys, fixed parameters
untouched, the `j`-th entry (taken to the linear scale, clamped when bounds are enforced) becomes the
value of the `j`-th tunable parameter and priors never change. -/
theorem C24_entry_to_parameter (ex : Dbl → Dbl) (b : Build) (fb : Bool) (params : ParameterStore)
    (x : List Dbl) (hw : SMap.WF params) (hlen : x.length = (tunable params).length) :
    ∃ out, setTunableParamsValues ex b params x fb = .ok out ∧ SMap.WF out ∧
      out.keys = params.keys ∧
      (∀ name p, params.find? name = some p → p.isFixed = true → out.find? name = some p) ∧
      (∀ (j : Nat) (name : String) (p : Parameter) (v : Dbl),
        (tunable params)[j]? = some (name, p) → x[j]? = some v →
        ∃ w, out.find? name = some ⟨w, p.prior⟩ ∧
          (fb = false → w = toScale ex p v) ∧
          (fb = true → IsClamp p.prior.lower p.prior.upper (toScale ex p v) w)) := by
  obtain ⟨l, hl⟩ := Option.isSome_iff_exists.1 ((assigned_isSome ex fb params x).2 hlen.ge)
  obtain ⟨h1, h2, h3⟩ := assigned_spec _ _ _ _ _ hl
  have hwl : SMap.WF l := by rw [SMap.wf_iff_keys, h1]; exact SMap.wf_iff_keys.1 hw
  refine ⟨l, ?_, hwl, h1, ?_, ?_⟩
  · rw [setTunable_eq _ _ _ _ _ hw, hl]; simp [hlen, Except.bind]
  · intro name p hp hf
    exact SMap.find?_of_mem hwl (h2 _ (SMap.mem_of_find? hp) hf)
  · intro j name p v hj hv
    refine ⟨_, SMap.find?_of_mem hwl (h3 j name p v hj hv), ?_, ?_⟩
    · rintro rfl; rfl
    · rintro rfl
      exact clamp_isClamp p _

theorem clamp_bounds {lo hi x y : Dbl} (h : IsClamp lo hi x y) (hle : lo ≤ hi) (hx : x ≠ .nan) :
    lo ≤ y ∧ y ≤ hi := by
  have hlo := Dbl.ne_nan_left hle
  have hhi := Dbl.ne_nan_right hle
  by_cases h1 : x < lo
  · rw [h.1 h1]; exact ⟨Dbl.le_refl hlo, hle⟩
  · by_cases h2 : hi < x
    · rw [h.2.1 h1 h2]; exact ⟨hle, Dbl.le_refl hhi⟩
    · rw [h.2.2 h1 h2]; exact ⟨(Dbl.not_lt hx hlo).1 h1, (Dbl.not_lt hhi hx).1 h2⟩

theorem tunable_index {params : ParameterStore} {name : String} {p : Parameter}
    (h : params.find? name = some p) (hf : p.isFixed = false) :
    ∃ j : Nat, (tunable params)[j]? = some (name, p) := by
  have : (name, p) ∈ tunable params := by
    simp [tunable, SMap.mem_of_find? h, hf]
  exact List.mem_iff_getElem?.1 this

/-- Part of C24: with bounds enforced every tunable parameter ends within its bounds, whatever the
vector, provided no entry is NaN.  The statement without the NaN proviso is false: see
`C24_nan_escapes_bounds`. -/
theorem C24_within_bounds_partial (ex : Dbl → Dbl) (b : Build) (params : ParameterStore)
    (x : List Dbl) (hw : SMap.WF params) (hlen : x.length = (tunable params).length)
    (hb : ∀ kv ∈ params, kv.2.prior.lower ≤ kv.2.prior.upper)
    (hnan : ∀ v ∈ x, v ≠ .nan) (hex : ∀ v, v ≠ .nan → ex v ≠ .nan) :
    ∃ out, setTunableParamsValues ex b params x true = .ok out ∧
      ∀ name p, out.find? name = some p → p.isFixed = false →
        p.prior.lower ≤ p.value ∧ p.value ≤ p.prior.upper := by
  obtain ⟨out, h1, hwo, hk, h2, h3⟩ := C24_entry_to_parameter ex b true params x hw hlen
  refine ⟨out, h1, fun name p hp hf => ?_⟩
  have hmem : (params.find? name).isSome := by
    rw [← SMap.mem_keys, ← hk, SMap.mem_keys, hp]; rfl
  obtain ⟨q, hq⟩ := Option.isSome_iff_exists.1 hmem
  by_cases hqf : q.isFixed = true
  · have := h2 name q hq hqf
    rw [hp] at this; cases this
    rw [hf] at hqf; cases hqf
  · obtain ⟨j, hj⟩ := tunable_index hq (by simpa using hqf)
    have hjl : j < x.length := by
      rw [hlen]; exact (List.getElem?_eq_some_iff.1 hj).1
    obtain ⟨w, hw', -, hc⟩ := h3 j name q x[j] hj (List.getElem?_eq_getElem hjl)
    rw [hp] at hw'
    cases hw'
    refine clamp_bounds (hc rfl) (hb _ (SMap.mem_of_find? hq)) ?_
    have := hnan x[j] (List.getElem_mem hjl)
    unfold toScale
    split
    · exact hex _ this
    · exact this

theorem exp_ne_nan {v : Dbl} (h : v ≠ .nan) : Dbl.exp v ≠ .nan := by
  cases v <;> simp_all [Dbl.exp]

/-- The store `{"sigma": 0.5 ~ Uniform(0, 1)}`. -/
noncomputable def sigmaStore : ParameterStore :=
  [("sigma", ⟨.fin (1 / 2), .uniform (.fin 0) (.fin 1)⟩)]

/-- The code does not satisfy the claim for NaN: bounds enforcement lets a NaN through, and the
resulting parameter is invalid. -/
theorem C24_nan_escapes_bounds (b : Build) :
    ∃ out, setTunableParamsValues Dbl.exp b sigmaStore [.nan] true = .ok out ∧
      paramsAreValid out = false := by
  refine ⟨[("sigma", ⟨.nan, .uniform (.fin 0) (.fin 1)⟩)], ?_, ?_⟩
  · simp [setTunableParamsValues, setTunableLoop, sigmaStore, Parameter.isFixed, Prior.isFixed,
      vecGet, Prior.isLogScale, ensureWithinBounds, setValue, SMap.alter]
  · simp [paramsAreValid, Parameter.isValid]

/-- A vector which is too long is caught by the assertion in a debug build; with `NDEBUG` the extra
entries are ignored. -/
theorem C24_too_long (ex : Dbl → Dbl) (fb : Bool) (params : ParameterStore) (x : List Dbl)
    (hw : SMap.WF params) (hlen : (tunable params).length < x.length) :
    setTunableParamsValues ex .debug params x fb = .error .assertFail ∧
    setTunableParamsValues ex .ndebug params x fb =
      setTunableParamsValues ex .ndebug params (x.take (tunable params).length) fb := by
  obtain ⟨l, hl⟩ := Option.isSome_iff_exists.1 ((assigned_isSome ex fb params x).2 hlen.le)
  have key : ∀ (ps : ParameterStore) (xs : List Dbl), (tunable ps).length ≤ xs.length →
      assigned ex fb ps (xs.take (tunable ps).length) = assigned ex fb ps xs := by
    intro ps
    induction ps with
    | nil => intro xs _; simp [assigned]
    | cons kv ps ih =>
      intro xs hle
      by_cases hf : kv.2.isFixed = true
      · have ht : tunable (kv :: ps) = tunable ps := by simp [tunable, hf]
        rw [ht] at hle ⊢
        simp [assigned, hf, ih xs hle]
      · have hf' : kv.2.isFixed = false := by simpa using hf
        have ht : tunable (kv :: ps) = kv :: tunable ps := by simp [tunable, hf']
        rw [ht] at hle ⊢
        cases xs with
        | nil => simp at hle
        | cons v xs =>
          simp only [assigned, hf', List.length_cons, List.take_succ_cons, Bool.false_eq_true,
            if_false]
          rw [ih xs (by simpa using hle)]
  constructor
  · rw [setTunable_eq _ _ _ _ _ hw, hl]
    have : (x.length == (tunable params).length) = false := by simp; omega
    simp [this, albatrossAssert, Except.bind]
  · rw [setTunable_eq _ _ _ _ _ hw, setTunable_eq _ _ _ _ _ hw, key _ _ hlen.le, hl]
    have : (x.length == (tunable params).length) = false := by simp; omega
    have h2 : ((x.take (tunable params).length).length == (tunable params).length) = true := by
      simp; omega
    rw [this, h2]; rfl

/-- The code does not satisfy the claim for short vectors: whenever the vector is too short the loop
reads past its end before the size assertion is reached, in both builds. -/
theorem C24_too_short_reads_out_of_bounds (ex : Dbl → Dbl) (b : Build) (fb : Bool)
    (params : ParameterStore) (x : List Dbl) (hw : SMap.WF params)
    (hlen : x.length < (tunable params).length) :
    setTunableParamsValues ex b params x fb = .error .ub := by
  rw [setTunable_eq _ _ _ _ _ hw]
  cases h : assigned ex fb params x with
  | none => rfl
  | some l =>
    have := (assigned_isSome ex fb params x).1 (by rw [h]; rfl)
    omega

/-- Setting tunable values and reading them back returns the vector, when its entries lie within the
bounds reported to the optimizer. -/
theorem C23_set_then_get (b : Build) (fb : Bool) (params : ParameterStore) (x : List Dbl)
    (hw : SMap.WF params) (hlen : x.length = (tunable params).length)
    (hx : ∀ (j : Nat) (name : String) (p : Parameter) (v : Dbl), (tunable params)[j]? = some (name, p) → x[j]? = some v →
      p.prior.lower ≤ toScale Dbl.exp p v ∧ toScale Dbl.exp p v ≤ p.prior.upper) :
    (do let out ← setTunableParamsValues Dbl.exp b params x fb
        let t ← getTunableParameters Dbl.log b out
        pure t.values) = .ok x := by
  obtain ⟨l, hl⟩ := Option.isSome_iff_exists.1 ((assigned_isSome Dbl.exp fb params x).2 hlen.ge)
  have hset : setTunableParamsValues Dbl.exp b params x fb = .ok l := by
    rw [setTunable_eq _ _ _ _ _ hw, hl]; simp [hlen, Except.bind]
  rw [hset, except_ok_bind]
  have key : ∀ (ps : ParameterStore) (xs : List Dbl) (l : ParameterStore),
      xs.length = (tunable ps).length →
      (∀ (j : Nat) (name : String) (p : Parameter) (v : Dbl), (tunable ps)[j]? = some (name, p) → xs[j]? = some v →
        p.prior.lower ≤ toScale Dbl.exp p v ∧ toScale Dbl.exp p v ≤ p.prior.upper) →
      assigned Dbl.exp fb ps xs = some l →
      (∀ kv ∈ tunable l, kv.2.prior.lower ≤ kv.2.value ∧ kv.2.value ≤ kv.2.prior.upper) ∧
      (tunable l).map (fun kv => toScale Dbl.log kv.2 kv.2.value) = xs := by
    intro ps
    induction ps with
    | nil =>
      intro xs l hlen _ h
      simp [assigned] at h; subst h
      simp [tunable] at hlen ⊢; exact hlen
    | cons kv ps ih =>
      intro xs l hlen hx h
      obtain ⟨k, p⟩ := kv
      by_cases hf : p.isFixed = true
      · have ht : tunable ((k, p) :: ps) = tunable ps := by simp [tunable, hf]
        rw [ht] at hlen hx
        simp only [assigned, hf, if_true, Option.map_eq_some_iff] at h
        obtain ⟨l', h', rfl⟩ := h
        have ht' : tunable ((k, p) :: l') = tunable l' := by simp [tunable, hf]
        rw [ht']
        exact ih xs l' hlen hx h'
      · have hf' : p.isFixed = false := by simpa using hf
        have ht : tunable ((k, p) :: ps) = (k, p) :: tunable ps := by simp [tunable, hf']
        rw [ht] at hlen hx
        cases xs with
        | nil => simp at hlen
        | cons v xs =>
          simp only [assigned, hf', Bool.false_eq_true, if_false, Option.map_eq_some_iff] at h
          obtain ⟨l', h', rfl⟩ := h
          have hb := hx 0 k p v rfl rfl
          obtain ⟨i1, i2⟩ := ih xs l' (by simpa using hlen)
            (fun j name q w hj hv => hx (j + 1) name q w (by simpa using hj) (by simpa using hv)) h'
          have hv : tunedValue Dbl.exp fb p v = toScale Dbl.exp p v := by
            unfold tunedValue
            cases fb
            · rfl
            · simp [ensureWithinBounds, Dbl.not_lt_of_le hb.1, Dbl.not_lt_of_le hb.2]
          have ht' : ∀ w, tunable ((k, { p with value := w }) :: l') =
              (k, { p with value := w }) :: tunable l' := by
            intro w
            have : Parameter.isFixed { p with value := w } = false := hf'
            simp [tunable, this]
          rw [ht', hv]
          refine ⟨?_, ?_⟩
          · intro kv hkv
            rcases List.mem_cons.1 hkv with rfl | hkv
            · exact hb
            · exact i1 kv hkv
          · simp only [List.map_cons, i2]
            congr 1
            unfold toScale
            by_cases hl : p.prior.isLogScale = true
            · simp [hl, Dbl.log_exp]
            · simp [hl]
  obtain ⟨k1, k2⟩ := key params x l hlen hx hl
  rw [C23_get_tunable Dbl.log b l k1]
  simp [k2]

/-! ### A concrete store -/

/-- `{"a": 2 (fixed), "b": 1 ~ LogScaleUniform(1/2, 8), "c": -3 ~ Uniform(-4, 4)}` -/
noncomputable def abcStore : ParameterStore :=
  [("a", ⟨.fin 2, .fixed⟩), ("b", ⟨.fin 1, .logScaleUniform (.fin (1 / 2)) (.fin 8)⟩),
   ("c", ⟨.fin (-3), .uniform (.fin (-4)) (.fin 4)⟩)]

theorem abc_wf : SMap.WF abcStore := by
  rw [SMap.wf_iff_keys]
  show ["a", "b", "c"].Pairwise (· < ·)
  decide

theorem abc_tunable : tunable abcStore = [("b", ⟨.fin 1, .logScaleUniform (.fin (1 / 2)) (.fin 8)⟩),
    ("c", ⟨.fin (-3), .uniform (.fin (-4)) (.fin 4)⟩)] := by
  simp [tunable, abcStore, Parameter.isFixed, Prior.isFixed]

example (b : Build) : getTunableParameters Dbl.log b abcStore = .ok
    { names := ["b", "c"], values := [.fin 0, .fin (-3)],
      lowerBounds := [.fin (Real.log (1 / 2)), .fin (-4)],
      upperBounds := [.fin (Real.log 8), .fin 4] } := by
  rw [C23_get_tunable]
  · simp [abc_tunable, toScale, Prior.isLogScale, Dbl.log, Prior.lower, Prior.upper]
  · rw [abc_tunable]; simp [Prior.lower, Prior.upper]; norm_num

example (b : Build) : (do let t ← getTunableParameters Dbl.log b abcStore
                          setTunableParamsValues Dbl.exp b abcStore t.values true) = .ok abcStore := by
  refine C23_round_trip_real b true abcStore abc_wf ?_ ?_
  · rw [abc_tunable]; simp [Prior.lower, Prior.upper]; norm_num
  · rw [abc_tunable]; simp [Prior.lower, Prior.isLogScale]

/-- Both entries of `[log 100, -7]` are clamped; the fixed parameter stays. -/
example (b : Build) :
    setTunableParamsValues Dbl.exp b abcStore [.fin (Real.log 100), .fin (-7)] true = .ok
      [("a", ⟨.fin 2, .fixed⟩), ("b", ⟨.fin 8, .logScaleUniform (.fin (1 / 2)) (.fin 8)⟩),
       ("c", ⟨.fin (-4), .uniform (.fin (-4)) (.fin 4)⟩)] := by
  rw [setTunable_eq _ _ _ _ _ abc_wf]
  have e : Real.exp (Real.log 100) = 100 := Real.exp_log (by norm_num)
  simp only [assigned, abcStore, Parameter.isFixed, Prior.isFixed, tunedValue, toScale,
    Prior.isLogScale, ensureWithinBounds, Prior.lower, Prior.upper, Dbl.exp, e]
  norm_num [Except.bind, tunable, Parameter.isFixed, Prior.isFixed]

example (b : Build) : setTunableParamsValues Dbl.exp b abcStore [.fin 0] true = .error .ub :=
  C24_too_short_reads_out_of_bounds _ _ _ _ _ abc_wf (by rw [abc_tunable]; simp)

example : ∃ x : List Dbl, x.length = (tunable abcStore).length ∧ ∀ v ∈ x, v ≠ .nan :=
  ⟨[.fin 100, .ninf], by rw [abc_tunable]; rfl, by simp⟩

/-! ## C26 -/

/-- Setting a parameter that does not exist trips the assertion in a debug build and changes nothing
otherwise; this holds for `set_param`, `set_param_value` and `set_param_prior`. -/
theorem C26_set_missing (params : ParameterStore) (name : String) (param : Parameter) (v : Dbl)
    (prior : Prior) (h : params.find? name = none) :
    (setParam .debug name param params = .error .assertFail ∧
      setParamValue .debug name v params = .error .assertFail ∧
      setParamPrior .debug name prior params = .error .assertFail) ∧
    (setParam .ndebug name param params = .ok params ∧
      setParamValue .ndebug name v params = .ok params ∧
      setParamPrior .ndebug name prior params = .ok params) := by
  simp [setParam, setParamValue, setParamPrior, modifyParam, h, albatrossAssert]

/-- Setting an existing parameter replaces exactly that entry (value and prior, only the value, only
the prior). -/
theorem C26_set_existing (b : Build) (params : ParameterStore) (hw : SMap.WF params) (name : String)
    (old param : Parameter) (v : Dbl) (prior : Prior) (h : params.find? name = some old) :
    (∃ out, setParam b name param params = .ok out ∧ SMap.WF out ∧
      ∀ k, out.find? k = if k = name then some param else params.find? k) ∧
    (∃ out, setParamValue b name v params = .ok out ∧ SMap.WF out ∧
      ∀ k, out.find? k = if k = name then some ⟨v, old.prior⟩ else params.find? k) ∧
    (∃ out, setParamPrior b name prior params = .ok out ∧ SMap.WF out ∧
      ∀ k, out.find? k = if k = name then some ⟨old.value, prior⟩ else params.find? k) := by
  refine ⟨⟨params.put name param, ?_, SMap.wf_put hw _ _, fun k => SMap.find?_put hw _ _ _⟩,
    ⟨params.put name ⟨v, old.prior⟩, ?_, SMap.wf_put hw _ _, fun k => SMap.find?_put hw _ _ _⟩,
    ⟨params.put name ⟨old.value, prior⟩, ?_, SMap.wf_put hw _ _, fun k => SMap.find?_put hw _ _ _⟩⟩ <;>
  simp [setParam, setParamValue, setParamPrior, modifyParam, h]

theorem setParamsIfExists_loop (b : Build) (input : ParameterStore) (hi : SMap.WF input)
    (params : ParameterStore) (hw : SMap.WF params) (flag : Bool) :
    ∃ out, input.foldlM (fun (acc : Bool × ParameterStore) kv => do
        let r ← setParamIfExists b kv.1 kv.2 acc.2
        pure (acc.1 && r.1, r.2)) (flag, params) =
      (.ok (flag && input.all (fun kv => (params.find? kv.1).isSome), out) : Outcome _) ∧
      SMap.WF out ∧
      ∀ k, out.find? k = (params.find? k).map fun old => (input.find? k).getD old := by
  induction input generalizing params flag with
  | nil => exact ⟨params, by simp, hw, fun k => by simp [SMap.find?]⟩
  | cons kv rest ih =>
    obtain ⟨n, p⟩ := kv
    have hn : SMap.find? rest n = none := SMap.find?_none_of_lt (SMap.wf_cons.1 hi).1
    rw [List.foldlM_cons]
    cases hf : params.find? n with
    | none =>
      obtain ⟨out, h1, h2, h3⟩ := ih hi.tail params hw (flag && false)
      refine ⟨out, ?_, h2, ?_⟩
      · simp only [setParamIfExists, modifyParam, hf, except_pure, except_ok_bind,
          Bool.false_eq_true, if_false]
        simp only [setParamIfExists, modifyParam] at h1
        simpa [hf] using h1
      · intro k
        rw [h3 k]
        by_cases hk : k = n
        · subst hk; rw [hf]; rfl
        · simp [SMap.find?, hk]
    | some old =>
      have hw' : SMap.WF (params.put n p) := SMap.wf_put hw n p
      obtain ⟨out, h1, h2, h3⟩ := ih hi.tail (params.put n p) hw' flag
      refine ⟨out, ?_, h2, ?_⟩
      · simp only [setParamIfExists, modifyParam, hf, except_pure, except_ok_bind]
        simp only [setParamIfExists, modifyParam] at h1
        simp only [List.all_cons, hf, Option.isSome_some, Bool.true_and, Bool.and_true]
        refine (h1.trans ?_)
        congr 3
        rw [Bool.eq_iff_iff, List.all_eq_true, List.all_eq_true]
        refine forall₂_congr fun x hx => ?_
        rw [SMap.find?_put hw]
        have : x.1 ≠ n := ((SMap.wf_cons.1 hi).1 x hx).ne'
        simp [this]
      · intro k
        rw [h3 k, SMap.find?_put hw]
        by_cases hk : k = n
        · subst hk; simp [SMap.find?, hf, hn]
        · simp [SMap.find?, hk]

/-- `set_params_if_exists` changes exactly the parameters present in both stores (the key set stays
the same) and returns true iff the input is non-empty and all of its keys exist. -/
theorem C26_set_params_if_exists (b : Build) (input params : ParameterStore) (hi : SMap.WF input)
    (hw : SMap.WF params) :
    ∃ flag out, setParamsIfExists b input params = .ok (flag, out) ∧ SMap.WF out ∧
      (∀ k, out.find? k = (params.find? k).map fun old => (input.find? k).getD old) ∧
      (flag = true ↔ input ≠ [] ∧ ∀ k ∈ input.keys, k ∈ params.keys) := by
  obtain ⟨out, h1, h2, h3⟩ := setParamsIfExists_loop b input hi params hw (decide (0 < input.length))
  refine ⟨_, out, h1, h2, h3, ?_⟩
  rw [Bool.and_eq_true, decide_eq_true_iff, List.length_pos_iff, List.all_eq_true]
  refine and_congr_right fun _ => ?_
  simp only [SMap.keys, List.mem_map, forall_exists_index, and_imp, forall_apply_eq_imp_iff₂]
  refine forall₂_congr fun x _ => ?_
  rw [← SMap.mem_keys]
  simp [SMap.keys]

theorem setValue_eq_setParam (b : Build) (name : String) (v : Dbl) (params : ParameterStore) :
    setParamValueIfExists b name v params =
      setParamIfExists b name ⟨v, ((params.find? name).map Parameter.prior).getD .uninformative⟩
        params := by
  unfold setParamValueIfExists setParamIfExists modifyParam
  cases params.find? name <;> rfl

theorem setParamValuesIfExists_loop (b : Build) (input : SMap String Dbl) (hi : SMap.WF input)
    (params : ParameterStore) (hw : SMap.WF params) (flag : Bool) :
    ∃ out, input.foldlM (fun (acc : Bool × ParameterStore) kv => do
        let r ← setParamValueIfExists b kv.1 kv.2 acc.2
        pure (acc.1 && r.1, r.2)) (flag, params) =
      (.ok (flag && input.all (fun kv => (params.find? kv.1).isSome), out) : Outcome _) ∧
      SMap.WF out ∧
      ∀ k, out.find? k = (params.find? k).map fun old => ⟨(input.find? k).getD old.value, old.prior⟩ := by
  induction input generalizing params flag with
  | nil => exact ⟨params, by simp, hw, fun k => by simp [SMap.find?]⟩
  | cons kv rest ih =>
    obtain ⟨n, p⟩ := kv
    have hn : SMap.find? rest n = none := SMap.find?_none_of_lt (SMap.wf_cons.1 hi).1
    rw [List.foldlM_cons]
    cases hf : params.find? n with
    | none =>
      obtain ⟨out, h1, h2, h3⟩ := ih hi.tail params hw (flag && false)
      refine ⟨out, ?_, h2, ?_⟩
      · simp only [setParamValueIfExists, modifyParam, hf, except_pure, except_ok_bind,
          Bool.false_eq_true, if_false]
        simp only [setParamValueIfExists, modifyParam] at h1
        simpa [hf] using h1
      · intro k
        rw [h3 k]
        by_cases hk : k = n
        · subst hk; rw [hf]; rfl
        · simp [SMap.find?, hk]
    | some old =>
      have hw' : SMap.WF (params.put n ⟨p, old.prior⟩) := SMap.wf_put hw n _
      obtain ⟨out, h1, h2, h3⟩ := ih hi.tail (params.put n ⟨p, old.prior⟩) hw' flag
      refine ⟨out, ?_, h2, ?_⟩
      · simp only [setParamValueIfExists, modifyParam, hf, except_pure, except_ok_bind]
        simp only [setParamValueIfExists, modifyParam] at h1
        simp only [List.all_cons, hf, Option.isSome_some, Bool.true_and, Bool.and_true]
        refine (h1.trans ?_)
        congr 3
        rw [Bool.eq_iff_iff, List.all_eq_true, List.all_eq_true]
        refine forall₂_congr fun x hx => ?_
        rw [SMap.find?_put hw]
        have : x.1 ≠ n := ((SMap.wf_cons.1 hi).1 x hx).ne'
        simp [this]
      · intro k
        rw [h3 k, SMap.find?_put hw]
        by_cases hk : k = n
        · subst hk; simp [SMap.find?, hf, hn]
        · simp [SMap.find?, hk]

/-- `set_param_values_if_exists`: the same with values only; every prior is kept. -/
theorem C26_set_param_values_if_exists (b : Build) (input : SMap String Dbl)
    (params : ParameterStore) (hi : SMap.WF input) (hw : SMap.WF params) :
    ∃ flag out, setParamValuesIfExists b input params = .ok (flag, out) ∧ SMap.WF out ∧
      (∀ k, out.find? k =
        (params.find? k).map fun old => ⟨(input.find? k).getD old.value, old.prior⟩) ∧
      (flag = true ↔ input ≠ [] ∧ ∀ k ∈ input.keys, k ∈ params.keys) := by
  obtain ⟨out, h1, h2, h3⟩ :=
    setParamValuesIfExists_loop b input hi params hw (decide (0 < input.length))
  refine ⟨_, out, h1, h2, h3, ?_⟩
  rw [Bool.and_eq_true, decide_eq_true_iff, List.length_pos_iff, List.all_eq_true]
  refine and_congr_right fun _ => ?_
  simp only [SMap.keys, List.mem_map, forall_exists_index, and_imp, forall_apply_eq_imp_iff₂]
  refine forall₂_congr fun x _ => ?_
  rw [← SMap.mem_keys]
  simp [SMap.keys]

theorem setParams_existing (b : Build) (input : ParameterStore) (hi : SMap.WF input)
    (params : ParameterStore) (hw : SMap.WF params) (hall : ∀ k ∈ input.keys, k ∈ params.keys) :
    ∃ out, setParams b input params = .ok out ∧ SMap.WF out ∧
      ∀ k, out.find? k = (params.find? k).map fun old => (input.find? k).getD old := by
  unfold setParams
  induction input generalizing params with
  | nil => exact ⟨params, by simp, hw, fun k => by simp [SMap.find?]⟩
  | cons kv rest ih =>
    obtain ⟨n, p⟩ := kv
    have hn : SMap.find? rest n = none := SMap.find?_none_of_lt (SMap.wf_cons.1 hi).1
    rw [List.foldlM_cons]
    have : n ∈ params.keys := hall n (by simp [SMap.keys])
    obtain ⟨old, hf⟩ := Option.isSome_iff_exists.1 (SMap.mem_keys.1 this)
    obtain ⟨out, h1, h2, h3⟩ := ih hi.tail (params.put n p) (SMap.wf_put hw n p) (by
      intro k hk
      rw [SMap.mem_keys, SMap.find?_put hw]
      split
      · rfl
      · exact SMap.mem_keys.1 (hall k (by simp [SMap.keys] at hk ⊢; exact Or.inr hk)))
    refine ⟨out, ?_, h2, ?_⟩
    · have : setParam b n p params = .ok (params.put n p) := by simp [setParam, modifyParam, hf]
      rw [this, except_ok_bind, h1]
    · intro k
      rw [h3 k, SMap.find?_put hw]
      by_cases hk : k = n
      · subst hk; simp [SMap.find?, hf, hn]
      · simp [SMap.find?, hk]

/-- `set_params` does the same when every key exists; one missing key aborts a debug build. -/
theorem C26_set_params (b : Build) (input params : ParameterStore) (hi : SMap.WF input)
    (hw : SMap.WF params) :
    ((∀ k ∈ input.keys, k ∈ params.keys) →
      ∃ out, setParams b input params = .ok out ∧ SMap.WF out ∧
        ∀ k, out.find? k = (params.find? k).map fun old => (input.find? k).getD old) ∧
    ((∃ k ∈ input.keys, k ∉ params.keys) →
      setParams .debug input params = .error .assertFail) := by
  refine ⟨setParams_existing b input hi params hw, ?_⟩
  unfold setParams
  clear hi
  induction input generalizing params with
  | nil => rintro ⟨k, hk, -⟩; simp [SMap.keys] at hk
  | cons kv rest ih =>
    obtain ⟨n, p⟩ := kv
    rintro ⟨k, hk, hk'⟩
    rw [List.foldlM_cons]
    cases hf : params.find? n with
    | none => rw [(C26_set_missing params n p .nan .fixed hf).1.1]; rfl
    | some old =>
      have : setParam .debug n p params = .ok (params.put n p) := by simp [setParam, modifyParam, hf]
      rw [this, except_ok_bind]
      refine ih (params.put n p) (SMap.wf_put hw n p) ⟨k, ?_, ?_⟩
      · have hkn : k ≠ n := by
          rintro rfl; rw [SMap.mem_keys, hf] at hk'; exact hk' rfl
        simpa [SMap.keys, hkn] using hk
      · rw [SMap.mem_keys, SMap.find?_put hw]
        have hkn : k ≠ n := by
          rintro rfl; rw [SMap.mem_keys, hf] at hk'; exact hk' rfl
        simpa [hkn, SMap.mem_keys] using hk'

example (b : Build) : ∃ out, setParamsIfExists b [("b", ⟨.fin 5, .positive⟩), ("z", ⟨.nan, .fixed⟩)]
    abcStore = .ok (false, out) ∧ out.find? "b" = some ⟨.fin 5, .positive⟩ ∧
    out.find? "a" = some ⟨.fin 2, .fixed⟩ ∧ out.find? "z" = none := by
  obtain ⟨flag, out, h1, -, h2, h3⟩ := C26_set_params_if_exists b
    [("b", ⟨.fin 5, .positive⟩), ("z", ⟨.nan, .fixed⟩)] abcStore
    (by rw [SMap.wf_iff_keys]; show ["b", "z"].Pairwise (· < ·); decide) abc_wf
  have hf : flag = false := by
    rw [← Bool.not_eq_true, h3]
    rintro ⟨-, h⟩
    have := h "z" (by simp [SMap.keys])
    simp [SMap.keys, abcStore] at this
  subst hf
  exact ⟨out, h1, by simp [h2, abcStore, SMap.find?], by simp [h2, abcStore, SMap.find?],
    by simp [h2, abcStore, SMap.find?]⟩

/-! ## C72 -/

/-- A store is valid iff every parameter lies within the bounds of its prior. -/
theorem C72_valid_iff (params : ParameterStore) :
    paramsAreValid params = true ↔
      ∀ kv ∈ params, kv.2.prior.lower ≤ kv.2.value ∧ kv.2.value ≤ kv.2.prior.upper := by
  induction params with
  | nil => simp [paramsAreValid]
  | cons kv ps ih =>
    simp only [paramsAreValid, List.forall_mem_cons, ← ih]
    by_cases h : kv.2.prior.lower ≤ kv.2.value ∧ kv.2.value ≤ kv.2.prior.upper <;>
      simp [Parameter.isValid, h]

theorem priorSum_fin (l : List (String × Parameter)) (f : String × Parameter → ℝ) (s : ℝ)
    (h : ∀ kv ∈ l, kv.2.priorLogLikelihood = .fin (f kv)) :
    l.foldl (fun sum kv => sum + kv.2.priorLogLikelihood) (.fin s) = .fin (s + (l.map f).sum) := by
  induction l generalizing s with
  | nil => simp
  | cons kv l ih =>
    rw [List.foldl_cons, h kv (by simp), Dbl.fin_add, ih _ fun x hx => h x (List.mem_cons_of_mem _ hx)]
    simp [add_assoc]

/-- The prior log likelihood is the sum over all parameters. -/
theorem C72_log_likelihood_sum (params : ParameterStore) (f : String × Parameter → ℝ)
    (h : ∀ kv ∈ params, kv.2.priorLogLikelihood = .fin (f kv)) :
    parameterPriorLogLikelihood params = .fin (params.map f).sum := by
  unfold parameterPriorLogLikelihood
  rw [priorSum_fin params f 0 h, zero_add]

theorem priorSum_ninf (l : List (String × Parameter))
    (h : ∀ kv ∈ l, kv.2.priorLogLikelihood = .ninf ∨ ∃ x, kv.2.priorLogLikelihood = .fin x) :
    l.foldl (fun sum kv => sum + kv.2.priorLogLikelihood) .ninf = .ninf := by
  induction l with
  | nil => rfl
  | cons kv l ih =>
    rw [List.foldl_cons]
    have : Dbl.ninf + kv.2.priorLogLikelihood = .ninf := by
      rcases h kv (by simp) with h | ⟨x, h⟩ <;> rw [h] <;> rfl
    rw [this]
    exact ih fun x hx => h x (List.mem_cons_of_mem _ hx)

/-- One impossible parameter makes the whole store impossible. -/
theorem C72_log_likelihood_impossible (params : ParameterStore)
    (h : ∀ kv ∈ params, kv.2.priorLogLikelihood = .ninf ∨ ∃ x, kv.2.priorLogLikelihood = .fin x)
    (hex : ∃ kv ∈ params, kv.2.priorLogLikelihood = .ninf) :
    parameterPriorLogLikelihood params = .ninf := by
  unfold parameterPriorLogLikelihood
  generalize (0 : ℝ) = s
  induction params generalizing s with
  | nil => simp at hex
  | cons kv l ih =>
    have hl := fun x hx => h x (List.mem_cons_of_mem kv hx)
    rw [List.foldl_cons]
    rcases h kv (by simp) with h0 | ⟨x, h0⟩
    · rw [h0]; exact priorSum_ninf l hl
    · rw [h0, Dbl.fin_add]
      refine ih hl ?_ _
      obtain ⟨y, hy, hy'⟩ := hex
      rcases List.mem_cons.1 hy with rfl | hy
      · rw [h0] at hy'; cases hy'
      · exact ⟨y, hy, hy'⟩

/-- Parameters without a prior, and fixed ones, contribute nothing whatever their value (NaN
included): leaving them out does not change the sum. -/
theorem C72_no_prior_contributes_zero (params : ParameterStore) :
    parameterPriorLogLikelihood params = parameterPriorLogLikelihood
      (params.filter fun kv => match kv.2.prior with
        | .uninformative => false
        | .fixed => false
        | _ => true) := by
  unfold parameterPriorLogLikelihood
  have h0 : ∀ d : Dbl, d + .fin 0 = d := by
    intro d; cases d
    · show Dbl.fin _ = _; simp
    all_goals rfl
  generalize Dbl.fin 0 = s at *
  suffices ∀ (l : List (String × Parameter)) (a : Dbl),
      l.foldl (fun sum kv => sum + kv.2.priorLogLikelihood) a =
      (l.filter fun kv => match kv.2.prior with
        | .uninformative => false
        | .fixed => false
        | _ => true).foldl (fun sum kv => sum + kv.2.priorLogLikelihood) a from this params s
  intro l
  induction l with
  | nil => intro a; rfl
  | cons kv l ih =>
    intro a
    obtain ⟨k, v, pr⟩ := kv
    have hz : ∀ d : Dbl, d + .fin 0 = d := by
      intro d; cases d
      · show Dbl.fin _ = _; simp
      all_goals rfl
    have e : ∀ pr, (pr = .uninformative ∨ pr = .fixed) →
        a + Parameter.priorLogLikelihood ⟨v, pr⟩ = a := by
      rintro pr (rfl | rfl) <;> exact hz a
    rw [List.foldl_cons]
    cases pr with
    | uninformative => rw [e _ (Or.inl rfl), ih a]; rfl
    | fixed => rw [e _ (Or.inr rfl), ih a]; rfl
    | _ => rw [ih]; rfl

example : parameterPriorLogLikelihood abcStore = .fin (-Real.log (15 / 2) + -Real.log 8) := by
  have := C72_log_likelihood_sum abcStore
    (fun kv => if kv.1 = "a" then 0 else if kv.1 = "b" then -Real.log (15 / 2) else -Real.log 8)
    (by
      simp only [abcStore, List.forall_mem_cons, Parameter.priorLogLikelihood, Prior.logPdf,
        Dbl.fin_le, Dbl.fin_sub]
      norm_num [Dbl.log]
      exact ⟨by decide, by rw [if_neg (by decide), if_neg (by decide)]⟩)
  rw [this]
  simp [abcStore]

example : paramsAreValid abcStore = true := by
  rw [C72_valid_iff]; simp [abcStore, Prior.lower, Prior.upper]; norm_num

end Albatross
