import Verif.ProvidedFunctions
import Verif.KernelsProps
import Verif.HandlersProps
import Verif.ModelEqualityProps

/-! # C113: provided functions compute with the parameters they show -/

namespace Albatross

open Handler

/-! ## Specification -/

/-- What a covariance function of this type is in textbook form, given the value of every named parameter. -/
noncomputable def CovType.formula (env : String → ℝ) : CovType → ℝ → ℝ → ℝ
  | .radial .squaredExponential, x, y =>
    let l := env "squared_exponential_length_scale"
    if 0 < l then env "sigma_squared_exponential" ^ 2 * Real.exp (-((x - y) / l) ^ 2) else 0
  | .radial .exponential, x, y =>
    let l := env "exponential_length_scale"
    if 0 < l then env "sigma_exponential" ^ 2 * Real.exp (-(|x - y| / l)) else 0
  | .radial .matern32, x, y =>
    let l := env "matern_32_length_scale"
    if 0 < l then env "sigma_matern_32" ^ 2 * (1 + Real.sqrt 3 * |x - y| / l) * Real.exp (-(Real.sqrt 3 * |x - y| / l))
    else 0
  | .radial .matern52, x, y =>
    let l := env "matern_52_length_scale"
    if 0 < l then env "sigma_matern_52" ^ 2 * (1 + Real.sqrt 5 * |x - y| / l + 5 * (x - y) ^ 2 / (3 * l ^ 2)) *
      Real.exp (-(Real.sqrt 5 * |x - y| / l))
    else 0
  | .constant, _, _ => env "sigma_constant" ^ 2
  | .polynomial order, x, y => ∑ i ∈ Finset.range (order + 1), env ("sigma_polynomial_" ++ toString i) ^ 2 * (x * y) ^ i
  | .noise, x, y => if x = y then env "sigma_independent_noise" ^ 2 else 0
  | .nugget, x, y => if x = y then env "nugget_sigma" ^ 2 else 0
  | .sum l r, x, y => l.formula env x y + r.formula env x y
  | .product l r, x, y => l.formula env x y * r.formula env x y

/-- The same for a mean function. -/
noncomputable def MeanType.formula (env : String → ℝ) : MeanType → ℝ → ℝ
  | .zero, _ => 0
  | .linear, x => env "offset" + env "slope" * x
  | .sum l r, x => l.formula env x + r.formula env x
  | .product l r, x => l.formula env x * r.formula env x

/-- The object is one of this type: it has the members the class declares. -/
def CovType.Has : CovType → Handler → Prop
  | .radial k, .declared ms => ms.map Prod.fst = [k.lengthName, k.sigmaName]
  | .constant, .declared ms => ms.map Prod.fst = ["sigma_constant"]
  | .polynomial order, .store ps => SMap.WF ps ∧ ∀ k, k ∈ ps.keys ↔ ∃ i ≤ order, k = polynomialName i
  | .noise, .declared ms => ms.map Prod.fst = ["sigma_independent_noise"]
  | .nugget, .declared ms => ms.map Prod.fst = ["nugget_sigma"]
  | .sum a b, .both l r => a.Has l ∧ b.Has r
  | .product a b, .both l r => a.Has l ∧ b.Has r
  | _, _ => False

/-- The same for mean functions. -/
def MeanType.Has : MeanType → Handler → Prop
  | .zero, .store ps => ps = []
  | .linear, .declared ms => ms.map Prod.fst = ["slope", "offset"]
  | .sum a b, .both l r => a.Has l ∧ b.Has r
  | .product a b, .both l r => a.Has l ∧ b.Has r
  | _, _ => False

/-- `env` names the values of a parameter store. -/
def Names (env : String → ℝ) (ps : ParameterStore) : Prop := ∀ k p, ps.find? k = some p → p.value = .fin (env k)

/-- Every parameter the object holds, in any of its parts, satisfies `P`. -/
def Handler.Every (P : Parameter → Prop) : Handler → Prop
  | .store ps => ∀ kv ∈ ps, P kv.2
  | .declared ms => ∀ kv ∈ ms, P kv.2
  | .wrapped h => h.Every P
  | .both l r => l.Every P ∧ r.Every P
  | .gp ps m c => (∀ kv ∈ ps, P kv.2) ∧ m.Every P ∧ c.Every P
  | .sparse m i mean cov => P m ∧ P i ∧ mean.Every P ∧ cov.Every P

/-! ## Lemmas -/

theorem readValue_of {ms : List (String × Parameter)} {k : String} {p : Parameter} {v : ℝ}
    (h : SMap.find? ms k = some p) (hv : p.value = .fin v) : readValue ms k = some v := by
  obtain ⟨a, q⟩ := p
  simp only at hv
  subst hv
  simp [readValue, h]

theorem RadialKind.cov_formula (k : RadialKind) (env : String → ℝ) (x y : ℝ) :
    k.cov (euclideanDistance x y) (env k.lengthName) (env k.sigmaName) = (CovType.radial k).formula env x y := by
  cases k
  · have : ∀ l s : ℝ, Albatross.squaredExponential |x - y| l s =
        if 0 < l then s ^ 2 * Real.exp (-((x - y) / l) ^ 2) else 0 := by
      intro l s
      unfold Albatross.squaredExponential
      by_cases h : l ≤ 0
      · rw [if_pos h, if_neg (not_lt.2 h)]
      · rw [if_neg h, if_pos (not_le.1 h), sq s, div_pow, div_pow, sq_abs]
    exact this _ _
  · have : ∀ l s : ℝ, exponentialCov |x - y| l s = if 0 < l then s ^ 2 * Real.exp (-(|x - y| / l)) else 0 := by
      intro l s
      unfold exponentialCov
      by_cases h : l ≤ 0
      · rw [if_pos h, if_neg (not_lt.2 h)]
      · rw [if_neg h, if_pos (not_le.1 h), sq s, abs_div, abs_abs, abs_of_pos (not_le.1 h)]
    exact this _ _
  · have : ∀ l s : ℝ, Albatross.matern32 |x - y| l s =
        if 0 < l then s ^ 2 * (1 + Real.sqrt 3 * |x - y| / l) * Real.exp (-(Real.sqrt 3 * |x - y| / l)) else 0 := by
      intro l s
      unfold Albatross.matern32
      by_cases h : l ≤ 0
      · rw [if_pos h, if_neg (not_lt.2 h)]
      · rw [if_neg h, if_pos (not_le.1 h), sq s]
    exact this _ _
  · have : ∀ l s : ℝ, Albatross.matern52 |x - y| l s =
        if 0 < l then s ^ 2 * (1 + Real.sqrt 5 * |x - y| / l + 5 * (x - y) ^ 2 / (3 * l ^ 2)) *
          Real.exp (-(Real.sqrt 5 * |x - y| / l)) else 0 := by
      intro l s
      unfold Albatross.matern52
      by_cases h : l ≤ 0
      · rw [if_pos h, if_neg (not_lt.2 h)]
      · have h5 : Real.sqrt 5 * Real.sqrt 5 = 5 := Real.mul_self_sqrt (by norm_num)
        have hl : l ≠ 0 := (not_le.1 h).ne'
        have e : Real.sqrt 5 * |x - y| / l * (Real.sqrt 5 * |x - y| / l) / 3 = 5 * (x - y) ^ 2 / (3 * l ^ 2) := by
          rw [← sq_abs (x - y)]
          field_simp
          linear_combination |x - y| ^ 2 * h5
        rw [if_neg h, if_pos (not_le.1 h), sq s, ← e]
    exact this _ _

theorem polynomial_fold (ps : ParameterStore) (σ : Nat → ℝ) (x y : ℝ) (l : List Nat) (c : ℝ)
    (h : ∀ i ∈ l, readValue ps (polynomialName i) = some (σ i)) :
    l.foldlM (fun cov i => do
      let sigma ← readValue ps (polynomialName i)
      pure (cov + sigma * sigma * x ^ i * y ^ i)) c =
      some (l.foldl (fun cov i => cov + σ i * σ i * x ^ i * y ^ i) c) := by
  induction l generalizing c with
  | nil => rfl
  | cons a l ih =>
    rw [List.foldlM_cons, h a (by simp)]
    exact ih _ fun i hi => h i (List.mem_cons_of_mem _ hi)

/-- A call of the polynomial is the model of C22. -/
theorem call_polynomial (order : Nat) (ps : ParameterStore) (σ : Nat → ℝ) (x y : ℝ)
    (h : ∀ i ≤ order, readValue ps (polynomialName i) = some (σ i)) :
    (CovType.polynomial order).call (.store ps) x y = some (polynomialCov order σ x y) :=
  polynomial_fold ps σ x y _ 0 fun i hi => h i (Nat.lt_succ_iff.1 (List.mem_range.1 hi))

theorem SMap.keys_put_of_mem {m : ParameterStore} (hm : SMap.WF m) {k : String} (hk : (m.find? k).isSome) (p : Parameter) :
    (m.put k p).keys = m.keys := by
  refine List.Perm.eq_of_pairwise' (SMap.wf_iff_keys.1 (SMap.wf_put hm k p)) (SMap.wf_iff_keys.1 hm) ?_
  refine (List.perm_ext_iff_of_nodup (SMap.wf_put hm k p).keys_nodup hm.keys_nodup).2 fun j => ?_
  rw [SMap.mem_keys, SMap.mem_keys, SMap.find?_put hm]
  split_ifs with e
  · rw [e]; simpa using hk
  · rfl

theorem modifyParam_keys {b : Build} {name : String} {op : Parameter → Parameter} {params : ParameterStore} {f : Bool}
    {r : Bool × ParameterStore} (hw : SMap.WF params) (h : modifyParam b name op params f = .ok r) :
    r.2.keys = params.keys := by
  unfold modifyParam at h
  split at h
  · rename_i p hp
    simp at h; subst h
    exact SMap.keys_put_of_mem hw (by simp [hp]) _
  · cases f
    · simp at h; subst h; rfl
    · simp only [if_true, except_bind_eq_ok, except_pure] at h
      obtain ⟨-, -, h⟩ := h
      simp at h; subst h; rfl

theorem Handler.SameType.refl (h : Handler) : h.SameType h := by
  induction h with
  | store ps => rfl
  | declared ms => rfl
  | wrapped h ih => exact ih
  | both l r il ir => exact ⟨il, ir⟩
  | gp ps m c im ic => exact ⟨rfl, im, ic⟩
  | sparse m i mean cov im ic => exact ⟨im, ic⟩

theorem Handler.SameType.trans {a b c : Handler} (h : a.SameType b) (h' : b.SameType c) : a.SameType c := by
  induction a generalizing b c with
  | store ps =>
    cases b <;> simp only [Handler.SameType] at h
    cases c <;> simp only [Handler.SameType] at h'
    exact h.trans h'
  | declared ms =>
    cases b <;> simp only [Handler.SameType] at h
    cases c <;> simp only [Handler.SameType] at h'
    exact h.trans h'
  | wrapped a ih =>
    cases b <;> simp only [Handler.SameType] at h
    cases c <;> simp only [Handler.SameType] at h'
    exact ih h h'
  | both l r il ir =>
    cases b <;> simp only [Handler.SameType] at h
    cases c <;> simp only [Handler.SameType] at h'
    exact ⟨il h.1 h'.1, ir h.2 h'.2⟩
  | gp ps m c im ic =>
    cases b <;> simp only [Handler.SameType] at h
    cases c <;> simp only [Handler.SameType] at h'
    exact ⟨h.1.trans h'.1, im h.2.1 h'.2.1, ic h.2.2 h'.2.2⟩
  | sparse m i mean cov im ic =>
    cases b <;> simp only [Handler.SameType] at h
    cases c <;> simp only [Handler.SameType] at h'
    exact ⟨im h.1 h'.1, ic h.2 h'.2⟩

theorem ifExists_sameType {b : Build} {name : String} {p : Parameter} {h : Handler}
    {set : String → Parameter → Outcome Handler} {r : Bool × Handler}
    (hset : ∀ q h', set name q = .ok h' → h.SameType h') (hr : ifExists b name p h set = .ok r) : h.SameType r.2 := by
  unfold ifExists at hr
  rw [except_bind_eq_ok] at hr
  obtain ⟨⟨found, params⟩, -, hr⟩ := hr
  cases found
  · simp at hr; subst hr; exact SameType.refl h
  · simp only [Bool.not_true, Bool.false_eq_true, if_false] at hr
    rw [except_bind_eq_ok] at hr
    obtain ⟨q, -, hr⟩ := hr
    rw [except_bind_eq_ok] at hr
    obtain ⟨-, -, hr⟩ := hr
    rw [except_bind_eq_ok] at hr
    obtain ⟨h', h1, hr⟩ := hr
    simp at hr; subst hr
    exact hset q h' h1

/-- Setting a parameter keeps the type of an object, at every level. -/
theorem set_sameType {b : Build} {h h' : Handler} (hp : h.Proper) {name : String} {p : Parameter}
    (hset : Handler.set b h name p = .ok h') : h.SameType h' := by
  induction h generalizing h' p with
  | store ps =>
    simp only [Handler.set, setParam, except_bind_eq_ok, except_pure] at hset
    obtain ⟨ps', ⟨r, h1, h2⟩, h3⟩ := hset
    simp at h2 h3; subst h2 h3
    exact (modifyParam_keys hp h1).symm
  | declared ms =>
    simp only [Handler.set, except_bind_eq_ok, except_pure] at hset
    obtain ⟨ms', h1, h2⟩ := hset
    simp at h2; subst h2
    exact (setDeclared_names h1).symm
  | wrapped h ih =>
    simp only [Handler.set, except_bind_eq_ok, except_pure] at hset
    obtain ⟨h₁, h1, h2⟩ := hset
    simp at h2; subst h2
    exact ih hp h1
  | both l r il ir =>
    simp only [Handler.set] at hset
    rw [except_bind_eq_ok] at hset
    obtain ⟨⟨found, l'⟩, h1, hset⟩ := hset
    have hl' : l.SameType l' := ifExists_sameType (fun q h' e => il hp.1 e) h1
    cases found
    · simp only [Bool.false_eq_true, if_false] at hset
      rw [except_bind_eq_ok] at hset
      obtain ⟨⟨found, r'⟩, h2, hset⟩ := hset
      have hr' : r.SameType r' := ifExists_sameType (fun q h' e => ir hp.2 e) h2
      rw [except_bind_eq_ok] at hset
      obtain ⟨-, -, hset⟩ := hset
      simp at hset; subst hset
      exact ⟨hl', hr'⟩
    · simp at hset; subst hset
      exact ⟨hl', SameType.refl r⟩
  | gp ps mean cov im ic =>
    simp only [Handler.set] at hset
    rw [except_bind_eq_ok] at hset
    obtain ⟨⟨found, ps'⟩, h1, hset⟩ := hset
    have hps' := (modifyParam_keys hp.1 h1).symm
    cases found
    · simp only [Bool.false_eq_true, if_false] at hset
      rw [except_bind_eq_ok] at hset
      obtain ⟨⟨found, cov'⟩, h2, hset⟩ := hset
      have hc' : cov.SameType cov' := ifExists_sameType (fun q h' e => ic hp.2.2 e) h2
      cases found
      · simp only [Bool.false_eq_true, if_false] at hset
        rw [except_bind_eq_ok] at hset
        obtain ⟨⟨found, mean'⟩, h3, hset⟩ := hset
        have hm' : mean.SameType mean' := ifExists_sameType (fun q h' e => im hp.2.1 e) h3
        rw [except_bind_eq_ok] at hset
        obtain ⟨-, -, hset⟩ := hset
        simp at hset; subst hset
        exact ⟨rfl, hm', SameType.refl cov⟩
      · simp at hset; subst hset
        exact ⟨rfl, SameType.refl mean, hc'⟩
    · simp at hset; subst hset
      exact ⟨hps', SameType.refl mean, SameType.refl cov⟩
  | sparse m i mean cov im ic =>
    simp only [Handler.set] at hset
    split at hset
    · simp at hset; subst hset; exact ⟨SameType.refl mean, SameType.refl cov⟩
    · split at hset
      · simp at hset; subst hset; exact ⟨SameType.refl mean, SameType.refl cov⟩
      · rw [except_bind_eq_ok] at hset
        obtain ⟨⟨found, cov'⟩, h2, hset⟩ := hset
        have hc' : cov.SameType cov' := ifExists_sameType (fun q h' e => ic hp.2 e) h2
        cases found
        · simp only [Bool.false_eq_true, if_false] at hset
          rw [except_bind_eq_ok] at hset
          obtain ⟨⟨found, mean'⟩, h3, hset⟩ := hset
          have hm' : mean.SameType mean' := ifExists_sameType (fun q h' e => im hp.1 e) h3
          rw [except_bind_eq_ok] at hset
          obtain ⟨-, -, hset⟩ := hset
          simp at hset; subst hset
          exact ⟨hm', SameType.refl cov⟩
        · simp at hset; subst hset
          exact ⟨SameType.refl mean, hc'⟩

theorem uncheckedSet_sameType {b : Build} {h h' : Handler} (hp : h.Proper) {name : String} {p : Parameter}
    (hset : uncheckedSet b h name p = .ok h') : h.SameType h' ∧ h'.Proper := by
  unfold uncheckedSet at hset
  rw [except_bind_eq_ok] at hset
  obtain ⟨-, -, hset⟩ := hset
  exact ⟨set_sameType hp hset, set_proper hp hset⟩

theorem uncheckedSetAll_sameType {b : Build} {h h' : Handler} (hp : h.Proper) {ps : ParameterStore}
    (hset : uncheckedSetAll b h ps = .ok h') : h.SameType h' ∧ h'.Proper := by
  unfold uncheckedSetAll at hset
  induction ps generalizing h with
  | nil =>
    simp at hset; subst hset
    exact ⟨SameType.refl _, hp⟩
  | cons kv ps ih =>
    rw [List.foldlM_cons, except_bind_eq_ok] at hset
    obtain ⟨h₁, h1, h2⟩ := hset
    obtain ⟨h3, h4⟩ := uncheckedSet_sameType hp h1
    obtain ⟨h5, h6⟩ := ih h4 h2
    exact ⟨h3.trans h5, h6⟩

theorem setValue_sameType {b : Build} {h h' : Handler} (hp : h.Proper) {name : String} {v : Dbl}
    (hset : Handler.setValue b h name v = .ok h') : h.SameType h' ∧ h'.Proper := by
  unfold Handler.setValue at hset
  rw [except_bind_eq_ok] at hset
  obtain ⟨ps, -, hset⟩ := hset
  rw [except_bind_eq_ok] at hset
  obtain ⟨q, -, hset⟩ := hset
  exact uncheckedSet_sameType hp hset

theorem setAll_sameType {b : Build} {h h' : Handler} (hp : h.Proper) {input : ParameterStore}
    (hset : setAll b h input = .ok h') : h.SameType h' ∧ h'.Proper := by
  unfold setAll at hset
  rw [except_bind_eq_ok] at hset
  obtain ⟨ps, -, hset⟩ := hset
  exact uncheckedSetAll_sameType hp hset

/-! ### Types -/

theorem CovType.Has.proper {t : CovType} {h : Handler} (hh : t.Has h) : h.Proper := by
  induction t generalizing h with
  | radial k =>
    cases h <;> simp only [CovType.Has] at hh
    simp only [Handler.Proper, hh]
    cases k <;> decide
  | constant | noise | nugget =>
    cases h <;> simp only [CovType.Has] at hh
    simp [Handler.Proper, hh]
  | polynomial order =>
    cases h <;> simp only [CovType.Has] at hh
    exact hh.1
  | sum a b ia ib | product a b ia ib =>
    cases h <;> simp only [CovType.Has] at hh
    exact ⟨ia hh.1, ib hh.2⟩

theorem MeanType.Has.proper {t : MeanType} {h : Handler} (hh : t.Has h) : h.Proper := by
  induction t generalizing h with
  | zero =>
    cases h <;> simp only [MeanType.Has] at hh
    subst hh; exact SMap.wf_nil
  | linear =>
    cases h <;> simp only [MeanType.Has] at hh
    simp [Handler.Proper, hh]
  | sum a b ia ib | product a b ia ib =>
    cases h <;> simp only [MeanType.Has] at hh
    exact ⟨ia hh.1, ib hh.2⟩

theorem CovType.Has.sameType {t : CovType} {h h' : Handler} (hh : t.Has h) (hs : h.SameType h') (hp : h'.Proper) :
    t.Has h' := by
  induction t generalizing h h' with
  | radial k =>
    cases h <;> simp only [CovType.Has] at hh
    cases h' <;> simp only [Handler.SameType] at hs
    exact hs.symm.trans hh
  | constant | noise | nugget =>
    cases h <;> simp only [CovType.Has] at hh
    cases h' <;> simp only [Handler.SameType] at hs
    exact hs.symm.trans hh
  | polynomial order =>
    cases h <;> simp only [CovType.Has] at hh
    cases h' <;> simp only [Handler.SameType] at hs
    exact ⟨hp, by rw [← hs]; exact hh.2⟩
  | sum a b ia ib | product a b ia ib =>
    cases h <;> simp only [CovType.Has] at hh
    cases h' <;> simp only [Handler.SameType] at hs
    exact ⟨ia hh.1 hs.1 hp.1, ib hh.2 hs.2 hp.2⟩

theorem MeanType.Has.sameType {t : MeanType} {h h' : Handler} (hh : t.Has h) (hs : h.SameType h') (hp : h'.Proper) :
    t.Has h' := by
  induction t generalizing h h' with
  | zero =>
    cases h <;> simp only [MeanType.Has] at hh
    cases h' <;> simp only [Handler.SameType] at hs
    subst hh
    exact List.map_eq_nil_iff.1 hs.symm
  | linear =>
    cases h <;> simp only [MeanType.Has] at hh
    cases h' <;> simp only [Handler.SameType] at hs
    exact hs.symm.trans hh
  | sum a b ia ib | product a b ia ib =>
    cases h <;> simp only [MeanType.Has] at hh
    cases h' <;> simp only [Handler.SameType] at hs
    exact ⟨ia hh.1 hs.1 hp.1, ib hh.2 hs.2 hp.2⟩

theorem names_left {env : String → ℝ} {l r : Handler} (hs : (both l r).Separate) (he : Names env (both l r).getParams) :
    Names env l.getParams ∧ Names env r.getParams := by
  obtain ⟨hl, hr, hd⟩ := hs
  constructor
  · intro k p hk
    refine he k p ?_
    have : r.getParams.find? k = none := by
      have := hd k (SMap.mem_keys.2 (by simp [hk]))
      rw [SMap.mem_keys] at this
      simpa using this
    rw [find?_both hl.proper hr.proper, this, Option.none_or, hk]
  · intro k p hk
    refine he k p ?_
    rw [find?_both hl.proper hr.proper, hk, Option.some_or]

theorem readValue_declared {env : String → ℝ} {ms : List (String × Parameter)} {k : String}
    (he : Names env (declared ms).getParams) (hk : k ∈ ms.map Prod.fst) : readValue ms k = some (env k) := by
  have : (SMap.find? ms k).isSome := SMap.mem_keys.1 hk
  obtain ⟨p, hp⟩ := Option.isSome_iff_exists.1 this
  exact readValue_of hp (he k p (by rw [find?_declared, hp]))

/-! ## Theorems -/

/-- An object without a name used twice computes the textbook formula of the parameters that `get_params` shows. -/
theorem C113_computes_partial (t : CovType) (h : Handler) (ht : t.Has h) (hs : h.Separate) (env : String → ℝ)
    (he : Names env h.getParams) (x y : ℝ) : t.call h x y = some (t.formula env x y) := by
  induction t generalizing h with
  | radial k =>
    cases h <;> simp only [CovType.Has] at ht
    rw [← RadialKind.cov_formula]
    simp only [CovType.call, readValue_declared he (by rw [ht]; simp : k.lengthName ∈ _),
      readValue_declared he (by rw [ht]; simp : k.sigmaName ∈ _)]
    rfl
  | constant =>
    cases h <;> simp only [CovType.Has] at ht
    simp only [CovType.call, readValue_declared he (by rw [ht]; simp : "sigma_constant" ∈ _), CovType.formula, sq]
    rfl
  | noise =>
    cases h <;> simp only [CovType.Has] at ht
    simp only [CovType.call, readValue_declared he (by rw [ht]; simp : "sigma_independent_noise" ∈ _), CovType.formula,
      sq]
    rfl
  | nugget =>
    cases h <;> simp only [CovType.Has] at ht
    simp only [CovType.call, readValue_declared he (by rw [ht]; simp : "nugget_sigma" ∈ _), CovType.formula, sq]
    rfl
  | polynomial order =>
    cases h <;> simp only [CovType.Has] at ht
    rename_i ps
    rw [call_polynomial order ps (fun i => env (polynomialName i)) x y, polynomialCov_eq]
    · simp only [CovType.formula, Option.some.injEq]
      refine Finset.sum_congr rfl fun i _ => ?_
      show env (polynomialName i) * x ^ i * (env (polynomialName i) * y ^ i) = env (polynomialName i) ^ 2 * (x * y) ^ i
      rw [mul_pow]; ring
    · intro i hi
      obtain ⟨p, hp⟩ := Option.isSome_iff_exists.1 (SMap.mem_keys.1 ((ht.2 (polynomialName i)).2 ⟨i, hi, rfl⟩))
      exact readValue_of hp (he _ p hp)
  | sum a b ia ib =>
    cases h <;> simp only [CovType.Has] at ht
    obtain ⟨el, er⟩ := names_left hs he
    simp only [CovType.call, ia _ ht.1 hs.1 el, ib _ ht.2 hs.2.1 er, CovType.formula]
    rfl
  | product a b ia ib =>
    cases h <;> simp only [CovType.Has] at ht
    obtain ⟨el, er⟩ := names_left hs he
    simp only [CovType.call, ia _ ht.1 hs.1 el, ib _ ht.2 hs.2.1 er, CovType.formula]
    by_cases h0 : a.formula env x y = 0
    · simp [h0]
    · simp [h0]

/-- The same for mean functions. -/
theorem C113_mean_computes_partial (t : MeanType) (h : Handler) (ht : t.Has h) (hs : h.Separate) (env : String → ℝ)
    (he : Names env h.getParams) (x : ℝ) : t.call h x = some (t.formula env x) := by
  induction t generalizing h with
  | zero =>
    cases h <;> simp only [MeanType.Has] at ht
    rfl
  | linear =>
    cases h <;> simp only [MeanType.Has] at ht
    simp only [MeanType.call, readValue_declared he (by rw [ht]; simp : "slope" ∈ _),
      readValue_declared he (by rw [ht]; simp : "offset" ∈ _), MeanType.formula]
    rw [add_comm]; rfl
  | sum a b ia ib =>
    cases h <;> simp only [MeanType.Has] at ht
    obtain ⟨el, er⟩ := names_left hs he
    simp only [MeanType.call, ia _ ht.1 hs.1 el, ib _ ht.2 hs.2.1 er, MeanType.formula]
    rfl
  | product a b ia ib =>
    cases h <;> simp only [MeanType.Has] at ht
    obtain ⟨el, er⟩ := names_left hs he
    simp only [MeanType.call, ia _ ht.1 hs.1 el, ib _ ht.2 hs.2.1 er, MeanType.formula]
    by_cases h0 : a.formula env x = 0
    · simp [h0]
    · simp [h0]


/-- No provided function has a parameter with an empty name. -/
theorem CovType.Has.names_ne {t : CovType} {h : Handler} (ht : t.Has h) : ∀ k ∈ h.getParams.keys, k ≠ "" := by
  induction t generalizing h with
  | radial k =>
    cases h <;> simp only [CovType.Has] at ht
    intro j hj
    rw [SMap.mem_keys, find?_declared, ← SMap.mem_keys] at hj
    have : j ∈ [k.lengthName, k.sigmaName] := by rw [← ht]; exact hj
    cases k <;> (simp only [List.mem_cons, List.not_mem_nil, or_false] at this; rcases this with rfl | rfl <;> decide)
  | constant | noise | nugget =>
    cases h <;> simp only [CovType.Has] at ht
    intro j hj
    rw [SMap.mem_keys, find?_declared, ← SMap.mem_keys] at hj
    have hj' : j ∈ List.map Prod.fst _ := hj
    rw [ht, List.mem_singleton] at hj'
    subst hj'; decide
  | polynomial order =>
    cases h <;> simp only [CovType.Has] at ht
    intro j hj
    obtain ⟨i, -, rfl⟩ := (ht.2 j).1 hj
    intro e
    have := congrArg String.length e
    simp [polynomialName] at this
  | sum a b ia ib | product a b ia ib =>
    cases h <;> simp only [CovType.Has] at ht
    intro j hj
    rw [SMap.mem_keys, find?_both ht.1.proper ht.2.proper, Option.isSome_or, Bool.or_eq_true, ← SMap.mem_keys,
      ← SMap.mem_keys] at hj
    exact hj.elim (ib ht.2 j) (ia ht.1 j)

/-- After `set_param(name, value)` the function computes with the new value, and with all the others as before. -/
theorem C113_set_partial (bld : Build) (t : CovType) (h : Handler) (ht : t.Has h) (hs : h.Separate) (env : String → ℝ)
    (he : Names env h.getParams) (name : String) (hn : name ∈ h.getParams.keys) (v : ℝ) :
    ∃ h', Handler.setValue bld h name (.fin v) = .ok h' ∧ t.Has h' ∧ h'.Separate ∧
      ∀ x y, t.call h' x y = some (t.formula (Function.update env name v) x y) := by
  obtain ⟨old, ho⟩ := Option.isSome_iff_exists.1 (SMap.mem_keys.1 hn)
  obtain ⟨⟨h', h1, h2, h3⟩, -⟩ := C25_set_value_partial bld h hs name (ht.names_ne name hn) (.fin v) .fixed old ho
  obtain ⟨h4, h5⟩ := setValue_sameType ht.proper h1
  have ht' := ht.sameType h4 h5
  refine ⟨h', h1, ht', h2, C113_computes_partial t h' ht' h2 _ ?_⟩
  intro k p hk
  rw [h3] at hk
  by_cases e : k = name
  · subst e
    rw [if_pos rfl] at hk
    cases hk
    simp
  · rw [if_neg e] at hk
    rw [Function.update_of_ne e]
    exact he k p hk

/-- After `set_params(store)` the function computes with what the store has, and otherwise as before. -/
theorem C113_set_params_partial (bld : Build) (t : CovType) (h : Handler) (ht : t.Has h) (hs : h.Separate)
    (env : String → ℝ) (he : Names env h.getParams) (input : ParameterStore) (hi : SMap.WF input) (new : String → ℝ)
    (hnew : Names new input) (hsub : ∀ k ∈ input.keys, k ∈ h.getParams.keys) :
    ∃ h', setAll bld h input = .ok h' ∧ t.Has h' ∧ h'.Separate ∧
      ∀ x y, t.call h' x y = some (t.formula (fun k => if k ∈ input.keys then new k else env k) x y) := by
  obtain ⟨h', h1, h2, h3⟩ := C25_set_params_partial bld h hs input hi ht.names_ne hsub
  obtain ⟨h4, h5⟩ := setAll_sameType ht.proper h1
  have ht' := ht.sameType h4 h5
  refine ⟨h', h1, ht', h2, C113_computes_partial t h' ht' h2 _ ?_⟩
  intro k p hk
  rw [h3] at hk
  simp only [SMap.mem_keys]
  cases hf : input.find? k with
  | none =>
    rw [hf, Option.none_or] at hk
    simpa using he k p hk
  | some q =>
    rw [hf, Option.some_or] at hk
    cases hk
    simpa using hnew k _ hf

/-- A Gaussian process with a provided mean and covariance function: what it shows is what both compute with, and after
`set_param(name, value)` on the model both compute with the new value. -/
theorem C113_gp_partial (bld : Build) (mt : MeanType) (ct : CovType) (ps : ParameterStore) (m c : Handler)
    (hm : mt.Has m) (hc : ct.Has c) (hs : (gp ps m c).Separate) (env : String → ℝ)
    (he : Names env (gp ps m c).getParams) :
    (∀ x, mt.call m x = some (mt.formula env x)) ∧ (∀ x y, ct.call c x y = some (ct.formula env x y)) ∧
    ∀ name, name ≠ "" → name ∈ (gp ps m c).getParams.keys → ∀ v : ℝ, ∃ ps' m' c',
      Handler.setValue bld (gp ps m c) name (.fin v) = .ok (gp ps' m' c') ∧
      (∀ x, mt.call m' x = some (mt.formula (Function.update env name v) x)) ∧
      ∀ x y, ct.call c' x y = some (ct.formula (Function.update env name v) x y) := by
  have key : ∀ (ps : ParameterStore) (m c : Handler), mt.Has m → ct.Has c → (gp ps m c).Separate → ∀ env : String → ℝ,
      Names env (gp ps m c).getParams →
      (∀ x, mt.call m x = some (mt.formula env x)) ∧ ∀ x y, ct.call c x y = some (ct.formula env x y) := by
    intro ps m c hm hc hs env he
    obtain ⟨w, sm, sc, d1, d2⟩ := hs
    refine ⟨C113_mean_computes_partial mt m hm sm env ?_, C113_computes_partial ct c hc sc env ?_⟩
    · intro k p hk
      refine he k p ?_
      have : c.getParams.find? k = none := by
        have := d2 k (SMap.mem_keys.2 (by simp [hk]))
        rw [SMap.mem_keys] at this
        simpa using this
      rw [find?_gp w hm.proper hc.proper, this, Option.none_or, hk, Option.some_or]
    · intro k p hk
      refine he k p ?_
      rw [find?_gp w hm.proper hc.proper, hk, Option.some_or, Option.some_or]
  obtain ⟨k1, k2⟩ := key ps m c hm hc hs env he
  refine ⟨k1, k2, fun name hne hn v => ?_⟩
  obtain ⟨old, ho⟩ := Option.isSome_iff_exists.1 (SMap.mem_keys.1 hn)
  obtain ⟨⟨h', h1, h2, h3⟩, -⟩ := C25_set_value_partial bld _ hs name hne (.fin v) .fixed old ho
  obtain ⟨h4, h5⟩ := setValue_sameType hs.proper h1
  cases h' <;> simp only [Handler.SameType] at h4
  rename_i ps' m' c'
  refine ⟨ps', m', c', h1, key ps' m' c' (hm.sameType h4.2.1 h5.2.1) (hc.sameType h4.2.2 h5.2.2) h2 _ ?_⟩
  intro k p hk
  rw [h3] at hk
  by_cases e : k = name
  · subst e
    rw [if_pos rfl] at hk
    cases hk
    simp
  · rw [if_neg e] at hk
    rw [Function.update_of_ne e]
    exact he k p hk

/-- Whatever the (finite) parameters, and whether or not names are shared, every provided covariance function and every
sum and product of them can be called on any two doubles and is positive semi-definite. -/
theorem C113_psd (t : CovType) (h : Handler) (ht : t.Has h) (hf : h.Every fun p => ∃ v : ℝ, p.value = .fin v) :
    ∃ K : ℝ → ℝ → ℝ, (∀ x y, t.call h x y = some (K x y)) ∧ IsPSD K := by
  have read : ∀ (ms : List (String × Parameter)) (k : String), k ∈ ms.map Prod.fst →
      (∀ kv ∈ ms, ∃ v : ℝ, kv.2.value = .fin v) → ∃ v, readValue ms k = some v := by
    intro ms k hk hv
    obtain ⟨p, hp⟩ := Option.isSome_iff_exists.1 (SMap.mem_keys.1 hk)
    obtain ⟨v, hv⟩ := hv _ (SMap.mem_of_find? hp)
    exact ⟨v, readValue_of hp hv⟩
  induction t generalizing h with
  | radial k =>
    cases h <;> simp only [CovType.Has] at ht
    rename_i ms
    obtain ⟨l, hl⟩ := read ms k.lengthName (by rw [ht]; simp) hf
    obtain ⟨s, hs⟩ := read ms k.sigmaName (by rw [ht]; simp) hf
    refine ⟨fun x y => k.cov (euclideanDistance x y) l s, fun x y => by simp [CovType.call, hl, hs], ?_⟩
    cases k
    · exact C22_squared_exponential_real_psd l s
    · exact C22_exponential_real_psd l s
    · exact C22_matern_32_real_psd l s
    · exact C22_matern_52_real_psd l s
  | constant =>
    cases h <;> simp only [CovType.Has] at ht
    obtain ⟨s, hs⟩ := read _ "sigma_constant" (by rw [ht]; simp) hf
    exact ⟨constantCov s, fun x y => by simp [CovType.call, hs], C22_constant_psd s⟩
  | noise =>
    cases h <;> simp only [CovType.Has] at ht
    obtain ⟨s, hs⟩ := read _ "sigma_independent_noise" (by rw [ht]; simp) hf
    exact ⟨noiseCov s, fun x y => by simp [CovType.call, hs], C22_noise_psd s⟩
  | nugget =>
    cases h <;> simp only [CovType.Has] at ht
    obtain ⟨s, hs⟩ := read _ "nugget_sigma" (by rw [ht]; simp) hf
    exact ⟨noiseCov s, fun x y => by simp [CovType.call, hs], C22_noise_psd s⟩
  | polynomial order =>
    cases h <;> simp only [CovType.Has] at ht
    rename_i ps
    have : ∀ i, ∃ v, i ≤ order → readValue ps (polynomialName i) = some v := by
      intro i
      by_cases hi : i ≤ order
      · obtain ⟨v, hv⟩ := read ps (polynomialName i) ((ht.2 _).2 ⟨i, hi, rfl⟩) hf
        exact ⟨v, fun _ => hv⟩
      · exact ⟨0, fun h => absurd h hi⟩
    choose σ hσ using this
    exact ⟨polynomialCov order σ, fun x y => call_polynomial order ps σ x y fun i hi => hσ i hi,
      C22_polynomial_psd order σ⟩
  | sum a b ia ib =>
    cases h <;> simp only [CovType.Has] at ht
    obtain ⟨K, h1, h2⟩ := ia _ ht.1 hf.1
    obtain ⟨L, h3, h4⟩ := ib _ ht.2 hf.2
    exact ⟨fun x y => K x y + L x y, fun x y => by simp [CovType.call, h1, h3], h2.add h4⟩
  | product a b ia ib =>
    cases h <;> simp only [CovType.Has] at ht
    obtain ⟨K, h1, h2⟩ := ia _ ht.1 hf.1
    obtain ⟨L, h3, h4⟩ := ib _ ht.2 hf.2
    refine ⟨fun x y => K x y * L x y, fun x y => ?_, h2.mul h4⟩
    by_cases h0 : K x y = 0
    · simp [CovType.call, h1, h0]
    · simp [CovType.call, h1, h3, h0]

/-! ### Constructors -/

theorem every_getParams {P : Parameter → Prop} {h : Handler} (hp : h.Proper) (he : h.Every P) :
    ∀ kv ∈ h.getParams, P kv.2 := by
  suffices hk : ∀ k p, h.getParams.find? k = some p → P p from
    fun kv hkv => hk kv.1 kv.2 (SMap.find?_of_mem (getParams_wf hp) hkv)
  intro k p hk
  induction h with
  | store ps => exact he _ (SMap.mem_of_find? hk)
  | declared ms =>
    rw [find?_declared] at hk
    exact he _ (SMap.mem_of_find? hk)
  | wrapped h ih => exact ih hp he hk
  | both l r il ir =>
    rw [find?_both hp.1 hp.2, Option.or_eq_some_iff] at hk
    rcases hk with hk | ⟨-, hk⟩
    · exact ir hp.2 he.2 hk
    · exact il hp.1 he.1 hk
  | gp ps m c im ic =>
    rw [find?_gp hp.1 hp.2.1 hp.2.2, Option.or_eq_some_iff, Option.or_eq_some_iff] at hk
    rcases hk with (hk | ⟨-, hk⟩) | ⟨-, hk⟩
    · exact ic hp.2.2 he.2.2 hk
    · exact im hp.2.1 he.2.1 hk
    · exact he.1 _ (SMap.mem_of_find? hk)
  | sparse m i mean cov im ic =>
    rw [find?_sparse hp.1 hp.2] at hk
    split_ifs at hk
    · cases hk; exact he.2.1
    · cases hk; exact he.1
    · rw [Option.or_eq_some_iff] at hk
      rcases hk with hk | ⟨-, hk⟩
      · exact ic hp.2 he.2.2.2 hk
      · exact im hp.1 he.2.2.1 hk

theorem polynomial_store (sigma : Dbl) (n : Nat) :
    SMap.WF ((List.range n).foldl (fun ps i => SMap.put ps (polynomialName i) (⟨sigma, .nonNegative⟩ : Parameter)) []) ∧
    ∀ k, SMap.find? ((List.range n).foldl (fun ps i => SMap.put ps (polynomialName i) (⟨sigma, .nonNegative⟩ : Parameter)) []) k =
      if ∃ i < n, k = polynomialName i then some (⟨sigma, .nonNegative⟩ : Parameter) else none := by
  induction n with
  | zero => exact ⟨SMap.wf_nil, fun k => by simp [SMap.find?]⟩
  | succ n ih =>
    rw [List.range_succ, List.foldl_append]
    refine ⟨SMap.wf_put ih.1 _ _, fun k => ?_⟩
    rw [List.foldl_cons, List.foldl_nil, SMap.find?_put ih.1, ih.2]
    by_cases e : k = polynomialName n
    · rw [if_pos e, if_pos ⟨n, Nat.lt_succ_self n, e⟩]
    · rw [if_neg e]
      refine if_congr ⟨fun ⟨i, hi, h⟩ => ⟨i, Nat.lt_succ_of_lt hi, h⟩, fun ⟨i, hi, h⟩ => ⟨i, ?_, h⟩⟩ rfl rfl
      rcases Nat.lt_succ_iff_lt_or_eq.1 hi with h' | rfl
      · exact h'
      · exact absurd h e

theorem polynomial_has (order : Nat) (sigma : Dbl) : (CovType.polynomial order).Has (makePolynomial order sigma) := by
  refine ⟨(polynomial_store sigma (order + 1)).1, fun k => ?_⟩
  rw [SMap.mem_keys, (polynomial_store sigma (order + 1)).2]
  by_cases h : ∃ i < order + 1, k = polynomialName i
  · rw [if_pos h]
    obtain ⟨i, hi, rfl⟩ := h
    exact ⟨fun _ => ⟨i, Nat.lt_succ_iff.1 hi, rfl⟩, fun _ => rfl⟩
  · rw [if_neg h]
    refine ⟨fun h' => by simp at h', fun ⟨i, hi, h'⟩ => absurd ⟨i, Nat.lt_succ_iff.2 hi, h'⟩ h⟩

theorem polynomial_every (order : Nat) (sigma : Dbl) (P : Parameter → Prop) :
    (makePolynomial order sigma).Every P ↔ P ⟨sigma, .nonNegative⟩ := by
  obtain ⟨hw, hf⟩ := polynomial_store sigma (order + 1)
  constructor
  · intro h
    have : SMap.find? _ (polynomialName 0) = _ := hf (polynomialName 0)
    rw [if_pos ⟨0, by omega, rfl⟩] at this
    exact h _ (SMap.mem_of_find? this)
  · intro h kv hkv
    have := SMap.find?_of_mem hw (k := kv.1) (v := kv.2) hkv
    rw [hf] at this
    split_ifs at this
    rw [Option.some.injEq] at this
    rw [← this]
    exact h

theorem CovType.default_has (t : CovType) : t.Has t.default := by
  induction t with
  | radial k => rfl
  | constant => rfl
  | noise => rfl
  | nugget => rfl
  | polynomial order => exact polynomial_has order _
  | sum a b ia ib => exact ⟨ia, ib⟩
  | product a b ia ib => exact ⟨ia, ib⟩

theorem MeanType.default_has (t : MeanType) : t.Has t.default := by
  induction t with
  | zero => rfl
  | linear => rfl
  | sum a b ia ib => exact ⟨ia, ib⟩
  | product a b ia ib => exact ⟨ia, ib⟩

theorem epsilon_le {v : ℝ} (h : 1 ≤ v * 10) : Prior.epsilon ≤ v := by
  have : Prior.epsilon ≤ 1 / 10 := by unfold Prior.epsilon; norm_num
  linarith

theorem valid_positive {v : ℝ} : (⟨.fin v, .positive⟩ : Parameter).isValid = true ↔ Prior.epsilon ≤ v := by
  simp [Parameter.isValid, Prior.lower, Prior.upper]

theorem valid_nonNegative {v : ℝ} : (⟨.fin v, .nonNegative⟩ : Parameter).isValid = true ↔ 0 ≤ v := by
  simp [Parameter.isValid, Prior.lower, Prior.upper]

/-- What a default constructed covariance function or sum or product of them holds is within its bounds, and its prior
log likelihood is zero. -/
theorem C113_defaults (t : CovType) : t.Has t.default ∧ paramsAreValid t.default.getParams = true ∧
    parameterPriorLogLikelihood t.default.getParams = .fin 0 ∧
    t.default.Every fun p => ∃ v : ℝ, p.value = .fin v := by
  have h : t.default.Every fun p => p.isValid = true ∧ p.priorLogLikelihood = .fin 0 ∧ ∃ v : ℝ, p.value = .fin v := by
    have hpos : ∀ v : ℝ, 1 ≤ v * 10 → (⟨.fin v, .positive⟩ : Parameter).isValid = true ∧
        (⟨.fin v, .positive⟩ : Parameter).priorLogLikelihood = .fin 0 ∧
        ∃ w : ℝ, (⟨.fin v, .positive⟩ : Parameter).value = .fin w := by
      intro v hv
      refine ⟨valid_positive.2 (epsilon_le hv), ?_, v, rfl⟩
      have : (0 : ℝ) < v := by linarith
      simp [Parameter.priorLogLikelihood, Prior.logPdf, this]
    have hnn : ∀ v : ℝ, 0 ≤ v → (⟨.fin v, .nonNegative⟩ : Parameter).isValid = true ∧
        (⟨.fin v, .nonNegative⟩ : Parameter).priorLogLikelihood = .fin 0 ∧
        ∃ w : ℝ, (⟨.fin v, .nonNegative⟩ : Parameter).value = .fin w := by
      intro v hv
      exact ⟨valid_nonNegative.2 hv, by simp [Parameter.priorLogLikelihood, Prior.logPdf, hv], v, rfl⟩
    induction t with
    | radial k =>
      intro kv hkv
      simp only [List.mem_cons, List.not_mem_nil, or_false] at hkv
      rcases hkv with rfl | rfl
      · exact hpos _ (by norm_num)
      · exact hnn _ (by norm_num)
    | constant =>
      intro kv hkv
      rw [List.mem_singleton] at hkv
      subst hkv
      exact hnn _ (by norm_num)
    | noise =>
      intro kv hkv
      rw [List.mem_singleton] at hkv
      subst hkv
      exact hpos _ (by norm_num)
    | nugget =>
      intro kv hkv
      rw [List.mem_singleton] at hkv
      subst hkv
      exact ⟨by simp [Parameter.isValid, Prior.lower, Prior.upper], rfl, _, rfl⟩
    | polynomial order => exact (polynomial_every order _ _).2 (hnn _ (by norm_num))
    | sum a b ia ib => exact ⟨ia, ib⟩
    | product a b ia ib => exact ⟨ia, ib⟩
  have hh := t.default_has
  have hg := every_getParams hh.proper h
  refine ⟨hh, ?_, ?_, ?_⟩
  · rw [C72_valid_iff]
    intro kv hkv
    simpa [Parameter.isValid] using (hg kv hkv).1
  · rw [C72_log_likelihood_sum _ (fun _ => 0) fun kv hkv => (hg kv hkv).2.1]
    simp
  · clear hg hh
    generalize t.default = d at h
    induction d with
    | store ps => exact fun kv hkv => (h kv hkv).2.2
    | declared ms => exact fun kv hkv => (h kv hkv).2.2
    | wrapped d ih => exact ih h
    | both l r il ir => exact ⟨il h.1, ir h.2⟩
    | gp ps m c im ic => exact ⟨fun kv hkv => (h.1 kv hkv).2.2, im h.2.1, ic h.2.2⟩
    | sparse m i mean cov im ic => exact ⟨h.1.2.2, h.2.1.2.2, im h.2.2.1, ic h.2.2.2⟩

/-- The same for mean functions; the priors of a straight line are proper densities. -/
theorem C113_mean_defaults (t : MeanType) : t.Has t.default ∧ paramsAreValid t.default.getParams = true ∧
    ∃ r : ℝ, parameterPriorLogLikelihood t.default.getParams = .fin r := by
  have h : t.default.Every fun p => p.isValid = true ∧
      p.priorLogLikelihood = .fin (-(1 / 2) * (log2Pi * 2 * Real.log 1000)) := by
    induction t with
    | zero => intro kv hkv; simp at hkv
    | linear =>
      intro kv hkv
      simp only [List.mem_cons, List.not_mem_nil, or_false] at hkv
      rcases hkv with rfl | rfl
      all_goals
        refine ⟨by simp [Parameter.isValid, Prior.lower, Prior.upper], ?_⟩
        have h1 : (Dbl.fin 1000).log = .fin (Real.log 1000) := by simp [Dbl.log]
        have h2 : Dbl.fin 0 / Dbl.fin 1000 = .fin 0 := by
          show Dbl.div _ _ = _
          simp [Dbl.div]
        simp [Parameter.priorLogLikelihood, Prior.logPdf, h1, h2]
    | sum a b ia ib => exact ⟨ia, ib⟩
    | product a b ia ib => exact ⟨ia, ib⟩
  have hh := t.default_has
  have hg := every_getParams hh.proper h
  refine ⟨hh, ?_, _, C72_log_likelihood_sum _ (fun _ => _) fun kv hkv => (hg kv hkv).2⟩
  rw [C72_valid_iff]
  intro kv hkv
  simpa [Parameter.isValid] using (hg kv hkv).1

/-- The constructors take any arguments: the parameters are valid exactly for a length scale of at least the machine
epsilon and a standard deviation that is not negative; the sign of a standard deviation makes no difference to what is
computed; a length scale that is not positive gives zero everywhere, also for the variance. -/
theorem C113_arguments (k : RadialKind) (l s : ℝ) :
    (paramsAreValid (k.make (.fin l) (.fin s)).getParams = true ↔ Prior.epsilon ≤ l ∧ 0 ≤ s) ∧
    (∀ x y, (CovType.radial k).call (k.make (.fin l) (.fin (-s))) x y =
      (CovType.radial k).call (k.make (.fin l) (.fin s)) x y) ∧
    (l ≤ 0 → ∀ x y, (CovType.radial k).call (k.make (.fin l) (.fin s)) x y = some 0) := by
  have hne : k.sigmaName ≠ k.lengthName := by cases k <;> decide
  have hc : ∀ s x y, (CovType.radial k).call (k.make (.fin l) (.fin s)) x y =
      some (k.cov (euclideanDistance x y) l s) := by
    intro s x y
    simp [CovType.call, RadialKind.make, readValue, SMap.find?, hne]
  refine ⟨?_, fun x y => ?_, fun hl x y => ?_⟩
  · rw [C72_valid_iff]
    have hp : (k.make (.fin l) (.fin s)).Proper := by
      show [k.lengthName, k.sigmaName].Nodup
      cases k <;> decide
    constructor
    · intro h
      have hw := getParams_wf hp
      have h1 := h (k.lengthName, ⟨.fin l, .positive⟩) (SMap.mem_of_find? (by
        rw [RadialKind.make, find?_declared]; simp [SMap.find?]))
      have h2 := h (k.sigmaName, ⟨.fin s, .nonNegative⟩) (SMap.mem_of_find? (by
        rw [RadialKind.make, find?_declared]; simp [SMap.find?, hne]))
      exact ⟨by simpa [Prior.lower] using h1.1, by simpa [Prior.lower] using h2.1⟩
    · intro ⟨h1, h2⟩
      refine every_getParams (P := fun p => p.prior.lower ≤ p.value ∧ p.value ≤ p.prior.upper) hp ?_
      intro kv hkv
      simp only [List.mem_cons, List.not_mem_nil, or_false] at hkv
      rcases hkv with rfl | rfl <;> simp [Prior.lower, Prior.upper, h1, h2]
  · rw [hc, hc]
    cases k <;> simp [RadialKind.cov, squaredExponential, exponentialCov, matern32, matern52]
  · rw [hc]
    cases k <;> simp [RadialKind.cov, squaredExponential, exponentialCov, matern32, matern52, hl]

/-- The other constructors: `Constant` and `Polynomial` are valid for a standard deviation that is not negative,
`IndependentNoise` for one of at least the machine epsilon. -/
theorem C113_arguments_rest (s : ℝ) (order : Nat) :
    (paramsAreValid (makeConstant (.fin s)).getParams = true ↔ 0 ≤ s) ∧
    (paramsAreValid (makeNoise (.fin s)).getParams = true ↔ Prior.epsilon ≤ s) ∧
    (paramsAreValid (makePolynomial order (.fin s)).getParams = true ↔ 0 ≤ s) ∧
    (∀ x y, (CovType.polynomial order).call (makePolynomial order (.fin s)) x y =
      some (∑ i ∈ Finset.range (order + 1), s ^ 2 * (x * y) ^ i)) := by
  refine ⟨?_, ?_, ?_, fun x y => ?_⟩
  · rw [C72_valid_iff]
    simp [makeConstant, getParams, SMap.ofList, SMap.emplace, SMap.alter, Prior.lower, Prior.upper]
  · rw [C72_valid_iff]
    simp [makeNoise, getParams, SMap.ofList, SMap.emplace, SMap.alter, Prior.lower, Prior.upper]
  · rw [C72_valid_iff]
    refine (polynomial_every order (.fin s) fun p => p.prior.lower ≤ p.value ∧ p.value ≤ p.prior.upper).trans ?_
    simp [Prior.lower, Prior.upper]
  · refine (C113_computes_partial _ _ (polynomial_has order _) (polynomial_has order (.fin s)).1 (fun _ => s) ?_ x y).trans
      rfl
    intro k p hk
    exact (polynomial_every order (.fin s) fun p => p.value = .fin s).2 rfl (k, p) (SMap.mem_of_find? hk)

/-- What the default constructed covariance functions compute: length scale 100000 and standard deviation 10 for the radial
ones, standard deviations 100 for constants and polynomials, 0.1 for noise. -/
theorem C113_default_values (x y : ℝ) :
    (∀ k : RadialKind, (CovType.radial k).call (CovType.radial k).default x y =
      some (k.cov (euclideanDistance x y) 100000 10)) ∧
    CovType.constant.call CovType.constant.default x y = some (100 ^ 2) ∧
    (∀ order, (CovType.polynomial order).call (CovType.polynomial order).default x y =
      some (∑ i ∈ Finset.range (order + 1), 100 ^ 2 * (x * y) ^ i)) ∧
    CovType.noise.call CovType.noise.default x y = some (if x = y then (1 / 10) ^ 2 else 0) := by
  refine ⟨fun k => ?_, ?_, fun order => (C113_arguments_rest 100 order).2.2.2 x y, ?_⟩
  · have hne : k.sigmaName ≠ k.lengthName := by cases k <;> decide
    simp [CovType.call, CovType.default, RadialKind.make, readValue, SMap.find?, hne]
  · simp [CovType.call, CovType.default, makeConstant, readValue, SMap.find?, constantCov]
    norm_num
  · simp [CovType.call, CovType.default, makeNoise, readValue, SMap.find?, noiseCov]
    norm_num

/-- The coefficients of a polynomial have names of their own, for any order: changing one changes that term only. -/
theorem C113_polynomial_terms (order : Nat) :
    (∀ i j, polynomialName i = polynomialName j → i = j) ∧
    ∀ (env : String → ℝ) (j : Nat), j ≤ order → ∀ v x y : ℝ,
      (CovType.polynomial order).formula (Function.update env (polynomialName j) v) x y =
        (CovType.polynomial order).formula env x y + (v ^ 2 - env (polynomialName j) ^ 2) * (x * y) ^ j := by
  have inj : ∀ i j, polynomialName i = polynomialName j → i = j := by
    intro i j h
    have h1 : (toString i).toList = (toString j).toList := by
      have := congrArg String.toList h
      simpa [polynomialName] using this
    have h2 : Nat.toDigits 10 i = Nat.toDigits 10 j := by
      rw [← Nat.toList_repr, ← Nat.toList_repr]; exact h1
    rw [← Nat.ofDigitChars_toDigits (b := 10) (n := i) (by norm_num) le_rfl, h2,
      Nat.ofDigitChars_toDigits (by norm_num) le_rfl]
  refine ⟨inj, fun env j hj v x y => ?_⟩
  show ∑ i ∈ Finset.range (order + 1), Function.update env (polynomialName j) v (polynomialName i) ^ 2 * (x * y) ^ i =
    ∑ i ∈ Finset.range (order + 1), env (polynomialName i) ^ 2 * (x * y) ^ i +
      (v ^ 2 - env (polynomialName j) ^ 2) * (x * y) ^ j
  rw [← sub_eq_iff_eq_add', ← Finset.sum_sub_distrib, Finset.sum_eq_single j]
  · simp [sub_mul]
  · intro i _ hi
    rw [Function.update_of_ne fun e => hi (inj i j e), sub_self]
  · intro h
    exact absurd (Finset.mem_range.2 (Nat.lt_succ_of_le hj)) h

/-- With a name used twice the claim is wrong: the sum of two constants shows one value of one hundred; setting it to
five succeeds, it still shows one hundred, and it computes with five in the one and one hundred in the other. -/
theorem C113_shared_false (bld : Build) : ∃ h' : Handler,
    Handler.setValue bld (CovType.sum .constant .constant).default "sigma_constant" (.fin 5) = .ok h' ∧
    (CovType.sum .constant .constant).Has h' ∧
    Names (fun _ => 100) h'.getParams ∧
    (CovType.sum .constant .constant).formula (fun _ => 100) 0 0 = 20000 ∧
    (CovType.sum .constant .constant).call h' 0 0 = some 10025 := by
  have hp : ∀ a b : Parameter, ∀ k, (both (declared [("sigma_constant", a)])
      (declared [("sigma_constant", b)])).getParams.find? k = if k = "sigma_constant" then some b else none := by
    intro a b k
    rw [find?_both (by simp [Proper]) (by simp [Proper]), find?_declared, find?_declared]
    simp only [SMap.find?]
    by_cases e : "sigma_constant" = k
    · simp [e]
    · simp [Ne.symm e]
  refine ⟨both (makeConstant (.fin 5)) (makeConstant (.fin 100)), ?_, ⟨rfl, rfl⟩, ?_, ?_, ?_⟩
  · simp only [CovType.default, makeConstant, Handler.setValue, setParamValue, modifyParam, hp, if_true]
    have hw : SMap.WF (both (declared [("sigma_constant", (⟨.fin 100, .nonNegative⟩ : Parameter))])
      (declared [("sigma_constant", ⟨.fin 100, .nonNegative⟩)])).getParams := getParams_wf (by simp [Proper])
    have h1 : SMap.at? (SMap.put (both (declared [("sigma_constant", (⟨.fin 100, .nonNegative⟩ : Parameter))])
      (declared [("sigma_constant", ⟨.fin 100, .nonNegative⟩)])).getParams "sigma_constant" ⟨.fin 5, .nonNegative⟩)
      "sigma_constant" = .ok ⟨.fin 5, .nonNegative⟩ := by simp [SMap.at?, SMap.find?_put hw]
    simp only [except_pure, except_ok_bind, h1]
    have h2 : (getParams (declared [("sigma_constant", (⟨.fin 100, .nonNegative⟩ : Parameter))])).find?
      "sigma_constant" = some ⟨.fin 100, .nonNegative⟩ := by rw [find?_declared]; simp [SMap.find?]
    have h3 := wf_declared [("sigma_constant", (⟨.fin 100, .nonNegative⟩ : Parameter))]
    have h4 : ∀ b, albatrossAssert b (decide (0 < "sigma_constant".length)) = .ok () := fun b => albatrossAssert_true b
    simp [uncheckedSet, h4, Handler.set, ifExists, setParamIfExists, modifyParam, h2, SMap.at?,
      SMap.find?_put h3, setDeclared]
  · intro k p hk
    rw [makeConstant, makeConstant, hp] at hk
    split_ifs at hk
    cases hk
    rfl
  · simp only [CovType.formula]; norm_num
  · simp [CovType.call, makeConstant, readValue, SMap.find?, constantCov]; norm_num

/-! ### Examples -/

/-- A squared exponential plus a straight line times noise: the names are separate, the theorems apply. -/
example : ∃ h env, (CovType.sum (.radial .squaredExponential) (.product .constant .noise)).Has h ∧ h.Separate ∧
    Names env h.getParams ∧ "sigma_constant" ∈ h.getParams.keys ∧
    (CovType.sum (.radial .squaredExponential) (.product .constant .noise)).formula env 1 1 = 200 := by
  have hc : ∀ k, (CovType.product .constant .noise).default.getParams.find? k =
      (SMap.find? [("sigma_independent_noise", (⟨.fin (1 / 10), .positive⟩ : Parameter))] k).or
        (SMap.find? [("sigma_constant", (⟨.fin 100, .nonNegative⟩ : Parameter))] k) := by
    intro k
    rw [CovType.default, find?_both (by simp [Proper, CovType.default, makeConstant])
      (by simp [Proper, CovType.default, makeNoise]), CovType.default, CovType.default, makeConstant, makeNoise,
      find?_declared, find?_declared]
  have hp := (CovType.default_has (CovType.product .constant .noise)).proper
  have hl := (CovType.default_has (CovType.radial .squaredExponential)).proper
  refine ⟨(CovType.sum (.radial .squaredExponential) (.product .constant .noise)).default,
    fun k => if k = "squared_exponential_length_scale" then 100000 else if k = "sigma_squared_exponential" then 10 else
      if k = "sigma_constant" then 100 else 1 / 10, CovType.default_has _, ⟨hl, ⟨?_, ?_, ?_⟩, ?_⟩, ?_, ?_, ?_⟩
  · simp [Separate, CovType.default, makeConstant]
  · simp [Separate, CovType.default, makeNoise]
  · intro k h1 h2
    rw [SMap.mem_keys] at h1 h2
    simp only [CovType.default, makeConstant, makeNoise, find?_declared, SMap.find?] at h1 h2
    split_ifs at h1 h2 <;> simp_all
  · intro k h1 h2
    rw [SMap.mem_keys] at h1 h2
    rw [hc] at h2
    simp only [CovType.default, RadialKind.make, find?_declared, SMap.find?, RadialKind.lengthName,
      RadialKind.sigmaName] at h1 h2
    split_ifs at h1 h2 <;> simp_all
  · intro k p hk
    rw [CovType.default, find?_both hl hp, hc] at hk
    simp only [CovType.default, RadialKind.make, find?_declared, SMap.find?, RadialKind.lengthName,
      RadialKind.sigmaName] at hk
    split_ifs at hk <;> simp_all
    all_goals (rw [← hk])
  · rw [SMap.mem_keys, CovType.default, find?_both hl hp, hc]
    simp [SMap.find?]
  · simp [CovType.formula]; norm_num

/-- A straight line as mean and a constant as covariance function of a Gaussian process. -/
example : ∃ (m c : Handler) (env : String → ℝ), MeanType.linear.Has m ∧ CovType.constant.Has c ∧
    (gp [] m c).Separate ∧ Names env (gp [] m c).getParams ∧ "slope" ∈ (gp [] m c).getParams.keys := by
  have hf : ∀ k, (gp [] makeLinear (makeConstant (.fin 100))).getParams.find? k =
      ((SMap.find? [("sigma_constant", (⟨.fin 100, .nonNegative⟩ : Parameter))] k).or
        (SMap.find? [("slope", (⟨.fin 0, .gaussian (.fin 0) (.fin 1000)⟩ : Parameter)),
          ("offset", ⟨.fin 0, .gaussian (.fin 0) (.fin 1000)⟩)] k)) := by
    intro k
    rw [find?_gp SMap.wf_nil (by simp [Proper, makeLinear]) (by simp [Proper, makeConstant]), makeLinear, makeConstant,
      find?_declared, find?_declared]
    simp [SMap.find?]
  refine ⟨makeLinear, makeConstant (.fin 100), fun k => if k = "sigma_constant" then 100 else 0, rfl, rfl,
    ⟨SMap.wf_nil, by simp [Separate, makeLinear], by simp [Separate, makeConstant], by simp [SMap.keys], ?_⟩, ?_, ?_⟩
  · intro k h1 h2
    rw [SMap.mem_keys] at h1 h2
    simp only [makeConstant, makeLinear, find?_declared, SMap.find?] at h1 h2
    split_ifs at h1 h2 <;> simp_all
  · intro k p hk
    rw [hf] at hk
    simp only [SMap.find?] at hk
    split_ifs at hk <;> simp_all
    all_goals (rw [← hk])
  · rw [SMap.mem_keys, hf]
    simp [SMap.find?]

end Albatross
