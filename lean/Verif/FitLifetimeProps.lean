import Verif.FitLifetime
import Verif.UtilsProps

/-! # C111: a prediction is that of the fit it was made from -/

namespace Albatross

variable {M F D X V : Type}

/-! ## Specification -/

/-- The prediction of a fitted model: the value for the features, as measurements if noise was asked for. -/
def FittedModel.says (code : FitCode M F D X V) (noise : Bool) (o : FittedModel M F) (xs : List X) : V :=
  code.value o.model o.fit (bif noise then xs.map code.measurement else xs)

/-- The statement may change, move from or destroy the object. -/
def FitStmt.Touches (i : ℕ) : FitStmt M F D X → Prop
  | .destroy j | .updateInPlace j _ | .assignModel j _ | .assignFit j _ | .takeFit j => j = i
  | .predict false .rvalue j _ => j = i
  | _ => False

/-- What the program reads from the prediction with number `k` at the end. -/
def readPrediction (code : FitCode M F D X V) (w : FitWorld M F X) (k : ℕ) : Outcome V :=
  match w.predictions[k]? with
  | some p => evalPrediction code w p
  | none => .error .ub

/-! ## Lemmas -/

theorem fitWorld_get_ok {w : FitWorld M F X} {i : ℕ} {o : FittedModel M F} :
    w.get i = .ok o ↔ w.objects[i]? = some (some o) := by
  unfold FitWorld.get
  split
  · rename_i o' h
    rw [h]
    simp
  · rename_i h
    refine ⟨fun h' => (by cases h'), fun h' => absurd h' (h o)⟩

theorem fitWorld_get_dead {w : FitWorld M F X} {i : ℕ} (h : w.objects[i]? = some none) : w.get i = .error .ub := by
  unfold FitWorld.get
  rw [h]

theorem fitWorld_get_lt {w : FitWorld M F X} {i : ℕ} {o : FittedModel M F} (h : w.get i = .ok o) :
    i < w.objects.length := by
  rw [fitWorld_get_ok] at h
  exact (List.getElem?_eq_some_iff.mp h).1

/-- Every call keeps the number of objects and the predictions, and what it changes is the object it is called on. -/
theorem predictAny_frame {code : FitCode M F D X V} {noise : Bool} {w w' : FitWorld M F X} {e : ObjExpr} {i : ℕ}
    {xs : List X} {p : PredictionObj M F X} (h : predictAny code noise w e i xs = .ok (p, w')) :
    w'.predictions = w.predictions ∧ w'.objects.length = w.objects.length ∧
      (∀ j, j ≠ i → w'.objects[j]? = w.objects[j]?) ∧ (¬ (noise = false ∧ e = .rvalue) → w' = w) := by
  cases noise <;> cases e <;>
    simp only [predictAny, predictNoiseCall, predictCall, Bool.false_eq_true, if_false, if_true] at h <;>
    rw [except_bind_eq_ok] at h <;> obtain ⟨o, ho, h⟩ := h <;> cases h <;>
    refine ⟨rfl, ?_, ?_, ?_⟩ <;> try simp [FitWorld.put]
  intro j hj
  rw [List.getElem?_set_ne (Ne.symm hj)]

/-- What every statement keeps: objects are not removed from the list, those it does not touch keep their state, those
that are dead stay dead, predictions stay what they are. -/
theorem exec_frame {code : FitCode M F D X V} {w w' : FitWorld M F X} {s : FitStmt M F D X}
    (h : s.exec code w = .ok w') :
    w.objects.length ≤ w'.objects.length ∧
      (∀ i, i < w.objects.length → ¬ s.Touches i → w'.objects[i]? = w.objects[i]?) ∧
      (∀ i : ℕ, w.objects[i]? = some none → w'.objects[i]? = some none) ∧
      (∀ (k : ℕ) p, w.predictions[k]? = some p → w'.predictions[k]? = some p) := by
  have hput : ∀ (i : ℕ) (o : FittedModel M F) (n : Option (FittedModel M F)), w.get i = .ok o →
      w.objects.length ≤ (w.put i n).objects.length ∧
      (∀ j, j < w.objects.length → i ≠ j → (w.put i n).objects[j]? = w.objects[j]?) ∧
      (∀ j : ℕ, w.objects[j]? = some none → (w.put i n).objects[j]? = some none) ∧
      (∀ (k : ℕ) p, w.predictions[k]? = some p → (w.put i n).predictions[k]? = some p) := by
    intro i o n ho
    refine ⟨by simp [FitWorld.put], fun j _ hj => ?_, fun j hj => ?_, fun k p hp => hp⟩
    · simp only [FitWorld.put]
      rw [List.getElem?_set_ne hj]
    · rw [fitWorld_get_ok] at ho
      have : i ≠ j := by
        rintro rfl
        rw [ho] at hj
        cases hj
      simp only [FitWorld.put]
      rw [List.getElem?_set_ne this]
      exact hj
  have hcre : ∀ o : FittedModel M F,
      w.objects.length ≤ (w.create o).objects.length ∧
      (∀ j, j < w.objects.length → (w.create o).objects[j]? = w.objects[j]?) ∧
      (∀ j : ℕ, w.objects[j]? = some none → (w.create o).objects[j]? = some none) ∧
      (∀ (k : ℕ) p, w.predictions[k]? = some p → (w.create o).predictions[k]? = some p) := by
    intro o
    refine ⟨by simp [FitWorld.create], fun j hj => ?_, fun j hj => ?_, fun k p hp => hp⟩
    · simp only [FitWorld.create]
      rw [List.getElem?_append_left hj]
    · simp only [FitWorld.create]
      rw [List.getElem?_append_left (List.getElem?_eq_some_iff.mp hj).1]
      exact hj
  cases s with
  | fit m d =>
    cases h
    obtain ⟨h1, h2, h3, h4⟩ := hcre ⟨m, code.fitImpl m d⟩
    exact ⟨h1, fun i hi _ => h2 i hi, h3, h4⟩
  | copy i =>
    unfold FitStmt.exec at h
    rw [except_bind_eq_ok] at h
    obtain ⟨o, ho, h⟩ := h
    cases h
    obtain ⟨h1, h2, h3, h4⟩ := hcre o
    exact ⟨h1, fun i hi _ => h2 i hi, h3, h4⟩
  | update i d =>
    unfold FitStmt.exec at h
    rw [except_bind_eq_ok] at h
    obtain ⟨o, ho, h⟩ := h
    cases h
    obtain ⟨h1, h2, h3, h4⟩ := hcre ⟨o.model, code.updateImpl o.model o.fit d⟩
    exact ⟨h1, fun i hi _ => h2 i hi, h3, h4⟩
  | assignConstModel i m =>
    unfold FitStmt.exec at h
    rw [except_bind_eq_ok] at h
    obtain ⟨o, ho, h⟩ := h
    cases h
    exact ⟨le_rfl, fun _ _ _ => rfl, fun _ h => h, fun _ _ h => h⟩
  | destroy i =>
    unfold FitStmt.exec at h
    rw [except_bind_eq_ok] at h
    obtain ⟨o, ho, h⟩ := h
    cases h
    exact hput i o none ho
  | updateInPlace i d =>
    unfold FitStmt.exec at h
    rw [except_bind_eq_ok] at h
    obtain ⟨o, ho, h⟩ := h
    cases h
    exact hput i o _ ho
  | assignModel i m =>
    unfold FitStmt.exec at h
    rw [except_bind_eq_ok] at h
    obtain ⟨o, ho, h⟩ := h
    cases h
    exact hput i o _ ho
  | assignFit i f =>
    unfold FitStmt.exec at h
    rw [except_bind_eq_ok] at h
    obtain ⟨o, ho, h⟩ := h
    cases h
    exact hput i o _ ho
  | takeFit i =>
    unfold FitStmt.exec at h
    rw [except_bind_eq_ok] at h
    obtain ⟨o, ho, h⟩ := h
    cases h
    exact hput i o _ ho
  | predict noise e i xs =>
    unfold FitStmt.exec at h
    rw [except_bind_eq_ok] at h
    obtain ⟨⟨p, v⟩, hr, h⟩ := h
    cases h
    obtain ⟨f1, f2, f3, f4⟩ := predictAny_frame hr
    refine ⟨by simp [FitWorld.keep, f2], fun j hj ht => ?_, fun j hj => ?_, fun k q hq => ?_⟩
    · simp only [FitWorld.keep]
      by_cases hc : noise = false ∧ e = .rvalue
      · obtain ⟨rfl, rfl⟩ := hc
        exact f3 j (Ne.symm ht)
      · rw [f4 hc]
    · simp only [FitWorld.keep]
      by_cases hji : j = i
      · subst hji
        exfalso
        have := fitWorld_get_dead hj
        cases noise <;> cases e <;>
          simp [predictAny, predictNoiseCall, predictCall, this, except_error_bind] at hr
      · rw [f3 j hji]
        exact hj
    · simp only [FitWorld.keep, f1]
      rw [List.getElem?_append_left (List.getElem?_eq_some_iff.mp hq).1]
      exact hq
  | predictTemporary noise isConst m d xs =>
    unfold FitStmt.exec at h
    dsimp only at h
    rw [except_bind_eq_ok] at h
    obtain ⟨⟨p, v⟩, hr, h⟩ := h
    cases h
    obtain ⟨f1, f2, f3, -⟩ := predictAny_frame hr
    obtain ⟨h1, h2, h3, h4⟩ := hcre ⟨m, code.fitImpl m d⟩
    have key : ∀ j, j < w.objects.length → (v.put w.objects.length none).objects[j]? = w.objects[j]? := by
      intro j hj
      simp only [FitWorld.put]
      rw [List.getElem?_set_ne (by omega), f3 j (by omega), h2 j hj]
    refine ⟨?_, fun j hj _ => ?_, fun j hj => ?_, fun k q hq => ?_⟩
    · simp only [FitWorld.keep, FitWorld.put, List.length_set, f2]
      exact h1
    · exact key j hj
    · refine (key j (List.getElem?_eq_some_iff.mp hj).1).trans hj
    · simp only [FitWorld.keep, FitWorld.put, f1]
      rw [List.getElem?_append_left (List.getElem?_eq_some_iff.mp (h4 k q hq)).1]
      exact h4 k q hq

/-- The same for programs. -/
theorem run_frame {code : FitCode M F D X V} {prog : List (FitStmt M F D X)} {w w' : FitWorld M F X}
    (h : runFit code w prog = .ok w') :
    w.objects.length ≤ w'.objects.length ∧
      (∀ i, i < w.objects.length → (∀ s ∈ prog, ¬ s.Touches i) → w'.objects[i]? = w.objects[i]?) ∧
      (∀ i : ℕ, w.objects[i]? = some none → w'.objects[i]? = some none) ∧
      (∀ (k : ℕ) p, w.predictions[k]? = some p → w'.predictions[k]? = some p) := by
  induction prog generalizing w with
  | nil => cases h; exact ⟨le_rfl, fun _ _ _ => rfl, fun _ h => h, fun _ _ h => h⟩
  | cons s t ih =>
    unfold runFit at h
    rw [except_bind_eq_ok] at h
    obtain ⟨w1, h1, h2⟩ := h
    obtain ⟨a1, a2, a3, a4⟩ := exec_frame h1
    obtain ⟨b1, b2, b3, b4⟩ := ih h2
    refine ⟨a1.trans b1, fun i hi ht => ?_, fun i hi => b3 i (a3 i hi), fun k p hp => b4 k p (a4 k p hp)⟩
    rw [b2 i (by omega) fun s hs => ht s (List.mem_cons_of_mem _ hs),
      a2 i hi (ht s List.mem_cons_self)]

/-! ## Properties -/

/-- A prediction which is evaluated where it is made has the value of the fitted model, whatever kind of expression the
fitted model is, with and without measurement noise. -/
theorem C111_immediate (code : FitCode M F D X V) (noise : Bool) (w : FitWorld M F X) (e : ObjExpr) (i : ℕ)
    (xs : List X) (o : FittedModel M F) (ho : w.get i = .ok o) :
    ∃ p w', predictAny code noise w e i xs = .ok (p, w') ∧ evalPrediction code w' p = .ok (o.says code noise xs) := by
  cases noise <;> cases e <;>
    simp only [predictAny, predictNoiseCall, predictCall, Bool.false_eq_true, if_false, if_true, ho, except_ok_bind,
      FittedModel.says, cond_true, cond_false] <;>
    refine ⟨_, _, rfl, ?_⟩ <;> simp [evalPrediction, ho, except_ok_bind]

/-- A prediction made from an rvalue (`std::move(fm).predict(xs)`) keeps its value whatever the program does afterwards,
to the fitted model it came from and to all others. -/
theorem C111_moved_into_prediction (code : FitCode M F D X V) (w w' : FitWorld M F X) (i : ℕ) (xs : List X)
    (o : FittedModel M F) (ho : w.get i = .ok o) (rest : List (FitStmt M F D X))
    (h : runFit code w (.predict false .rvalue i xs :: rest) = .ok w') :
    readPrediction code w' w.predictions.length = .ok (o.says code false xs) := by
  unfold runFit at h
  rw [except_bind_eq_ok] at h
  obtain ⟨w1, h1, h2⟩ := h
  unfold FitStmt.exec at h1
  simp only [predictAny, predictCall, Bool.false_eq_true, if_false, ho, except_ok_bind] at h1
  cases h1
  obtain ⟨-, -, -, b4⟩ := run_frame h2
  unfold readPrediction
  rw [b4 w.predictions.length (.owning o.model o.fit xs) (by simp [FitWorld.keep, FitWorld.put])]
  rfl

/-- The same for a prediction made from a fitted model that is a temporary (`auto p = model.fit(data).predict(xs)`). -/
theorem C111_temporary (code : FitCode M F D X V) (w w' : FitWorld M F X) (m : M) (d : D) (xs : List X)
    (rest : List (FitStmt M F D X))
    (h : runFit code w (.predictTemporary false false m d xs :: rest) = .ok w') :
    readPrediction code w' w.predictions.length =
      .ok (FittedModel.says code false ⟨m, code.fitImpl m d⟩ xs) := by
  unfold runFit at h
  rw [except_bind_eq_ok] at h
  obtain ⟨w1, h1, h2⟩ := h
  have ho : (w.create ⟨m, code.fitImpl m d⟩).get w.objects.length = .ok ⟨m, code.fitImpl m d⟩ := by
    rw [fitWorld_get_ok]
    simp [FitWorld.create]
  unfold FitStmt.exec at h1
  simp only [predictAny, predictCall, Bool.false_eq_true, if_false, ho, except_ok_bind] at h1
  cases h1
  obtain ⟨-, -, -, b4⟩ := run_frame h2
  unfold readPrediction
  rw [b4 w.predictions.length (.owning m (code.fitImpl m d) xs) (by simp [FitWorld.keep, FitWorld.put, FitWorld.create])]
  rfl

/-- Every other prediction refers to the fitted model.  It has the value the fitted model had when the prediction was
made as long as no statement changes, moves from or destroys that fitted model. -/
theorem C111_reference_partial (code : FitCode M F D X V) (w w' : FitWorld M F X) (noise : Bool) (e : ObjExpr)
    (hne : ¬ (noise = false ∧ e = .rvalue)) (i : ℕ) (xs : List X) (o : FittedModel M F) (ho : w.get i = .ok o)
    (rest : List (FitStmt M F D X)) (hrest : ∀ s ∈ rest, ¬ s.Touches i)
    (h : runFit code w (.predict noise e i xs :: rest) = .ok w') :
    readPrediction code w' w.predictions.length = .ok (o.says code noise xs) := by
  unfold runFit at h
  rw [except_bind_eq_ok] at h
  obtain ⟨w1, h1, h2⟩ := h
  have hw1 : w1 = w.keep (.reference i (bif noise then xs.map code.measurement else xs)) := by
    unfold FitStmt.exec at h1
    cases noise <;> cases e <;>
      simp_all [predictAny, predictNoiseCall, predictCall, except_ok_bind]
  subst hw1
  obtain ⟨-, b2, -, b4⟩ := run_frame h2
  unfold readPrediction
  rw [b4 w.predictions.length (.reference i (bif noise then xs.map code.measurement else xs)) (by simp [FitWorld.keep])]
  have hi := fitWorld_get_lt ho
  have : w'.get i = .ok o := by
    rw [fitWorld_get_ok] at ho ⊢
    rw [b2 i (by simpa [FitWorld.keep] using hi) hrest]
    exact ho
  simp [evalPrediction, this, except_ok_bind, FittedModel.says]

/-- What such a prediction says in general: what the fitted model it refers to says now. -/
theorem C111_reference (code : FitCode M F D X V) (w w' : FitWorld M F X) (noise : Bool) (e : ObjExpr)
    (hne : ¬ (noise = false ∧ e = .rvalue)) (i : ℕ) (xs : List X) (o : FittedModel M F) (ho : w.get i = .ok o)
    (rest : List (FitStmt M F D X)) (h : runFit code w (.predict noise e i xs :: rest) = .ok w') :
    readPrediction code w' w.predictions.length =
      (w'.get i).map fun now => now.says code noise xs := by
  unfold runFit at h
  rw [except_bind_eq_ok] at h
  obtain ⟨w1, h1, h2⟩ := h
  have hw1 : w1 = w.keep (.reference i (bif noise then xs.map code.measurement else xs)) := by
    unfold FitStmt.exec at h1
    cases noise <;> cases e <;>
      simp_all [predictAny, predictNoiseCall, predictCall, except_ok_bind]
  subst hw1
  obtain ⟨-, -, -, b4⟩ := run_frame h2
  unfold readPrediction
  rw [b4 w.predictions.length (.reference i (bif noise then xs.map code.measurement else xs)) (by simp [FitWorld.keep])]
  dsimp only
  unfold evalPrediction
  cases hg : w'.get i <;> simp only [hg] <;> rfl

/-- `auto p = model.fit(data).predict_with_measurement_noise(xs);` compiles, but every later use of `p` is undefined
behaviour, for every model.  So it is for `predict` on a temporary that is const. -/
theorem C111_temporary_false (code : FitCode M F D X V) (w w' : FitWorld M F X) (noise isConst : Bool)
    (hne : noise = true ∨ isConst = true) (m : M) (d : D) (xs : List X) (rest : List (FitStmt M F D X))
    (h : runFit code w (.predictTemporary noise isConst m d xs :: rest) = .ok w') :
    readPrediction code w' w.predictions.length = .error .ub := by
  unfold runFit at h
  rw [except_bind_eq_ok] at h
  obtain ⟨w1, h1, h2⟩ := h
  have ho : (w.create ⟨m, code.fitImpl m d⟩).get w.objects.length = .ok ⟨m, code.fitImpl m d⟩ := by
    rw [fitWorld_get_ok]
    simp [FitWorld.create]
  have hw1 : w1 = (((w.create ⟨m, code.fitImpl m d⟩).put w.objects.length none).keep
      (.reference w.objects.length (bif noise then xs.map code.measurement else xs))) := by
    unfold FitStmt.exec at h1
    cases noise <;> cases isConst <;>
      simp_all [predictAny, predictNoiseCall, predictCall, except_ok_bind]
  subst hw1
  obtain ⟨-, -, b3, b4⟩ := run_frame h2
  unfold readPrediction
  rw [b4 w.predictions.length (.reference w.objects.length (bif noise then xs.map code.measurement else xs))
    (by simp [FitWorld.keep, FitWorld.put, FitWorld.create])]
  have := fitWorld_get_dead (b3 w.objects.length (by simp [FitWorld.keep, FitWorld.put, FitWorld.create]))
  simp [evalPrediction, this, except_error_bind]

/-- Such a program always gets past the statement: nothing but the later use goes wrong. -/
theorem C111_temporary_runs (code : FitCode M F D X V) (w : FitWorld M F X) (noise isConst : Bool)
    (m : M) (d : D) (xs : List X) :
    ∃ w', (FitStmt.predictTemporary noise isConst m d xs).exec code w = .ok w' := by
  have ho : (w.create ⟨m, code.fitImpl m d⟩).get w.objects.length = .ok ⟨m, code.fitImpl m d⟩ := by
    rw [fitWorld_get_ok]
    simp [FitWorld.create]
  unfold FitStmt.exec
  cases noise <;> cases isConst <;>
    simp [predictAny, predictNoiseCall, predictCall, ho, except_ok_bind]

/-- A model for the examples: the fit is the sum of the data, updates add, the prediction adds every feature. -/
def sumCode : FitCode ℤ ℤ ℤ ℤ (List ℤ) where
  fitImpl m d := m + d
  updateImpl _ f d := f + d
  value m f xs := xs.map fun x => m * x + f
  measurement x := x + 100
  movedModel _ := 0
  movedFit _ := 0

/-- A prediction made from a named fitted model changes its value when the fitted model is updated in place, when its
model is changed through `get_model()`, and when it is moved from; after the fitted model is destroyed, using the
prediction is undefined behaviour. -/
theorem C111_named_false :
    let read := fun s : List (FitStmt ℤ ℤ ℤ ℤ) =>
      runFit sumCode ⟨[], []⟩ (.fit 1 2 :: .predict false .lvalue 0 [5] :: s) >>=
        fun w => readPrediction sumCode w 0
    read [] = .ok [8] ∧ read [.update 0 10] = .ok [8] ∧ read [.assignConstModel 0 7] = .ok [8] ∧
      read [.updateInPlace 0 10] = .ok [18] ∧ read [.assignModel 0 7] = .ok [38] ∧
      read [.predict false .rvalue 0 [5]] = .ok [0] ∧ read [.destroy 0] = .error .ub := by
  decide +kernel

example : runFit sumCode ⟨[], []⟩ [.predictTemporary true false 1 2 [5]] >>= (fun w => readPrediction sumCode w 0) =
    .error .ub := by decide +kernel
example : runFit sumCode ⟨[], []⟩ [.predictTemporary false false 1 2 [5], .fit 3 4, .destroy 1] >>=
    (fun w => readPrediction sumCode w 0) = .ok [8] := by decide +kernel
example : runFit sumCode ⟨[], []⟩
    [.fit 1 2, .predict true .lvalue 0 [5], .update 0 9, .copy 1, .updateInPlace 2 5, .destroy 1] >>=
    (fun w => readPrediction sumCode w 0) = .ok [108] := by decide +kernel

/-- `update` leaves the fitted model as it is and makes the fitted model which `update_in_place` would turn it into. -/
theorem C111_update (code : FitCode M F D X V) (w : FitWorld M F X) (i : ℕ) (d : D) (o : FittedModel M F)
    (ho : w.get i = .ok o) :
    ∃ w1 w2, (FitStmt.update i d).exec code w = .ok w1 ∧ (FitStmt.updateInPlace i d).exec code w = .ok w2 ∧
      w1.get i = .ok o ∧ w1.get w.objects.length = w2.get i ∧
      w2.get i = .ok ⟨o.model, code.updateImpl o.model o.fit d⟩ ∧
      ∀ j, j ≠ i → j < w.objects.length → w2.get j = w.get j ∧ w1.get j = w.get j := by
  have hi := fitWorld_get_lt ho
  have e1 : (FitStmt.update i d).exec code w =
      .ok (w.create ⟨o.model, code.updateImpl o.model o.fit d⟩) := by
    unfold FitStmt.exec
    simp [ho, except_ok_bind]
  have e2 : (FitStmt.updateInPlace i d).exec code w =
      .ok (w.put i (some ⟨o.model, code.updateImpl o.model o.fit d⟩)) := by
    unfold FitStmt.exec
    simp [ho, except_ok_bind]
  have g2 : (w.put i (some ⟨o.model, code.updateImpl o.model o.fit d⟩)).get i =
      .ok ⟨o.model, code.updateImpl o.model o.fit d⟩ := by
    rw [fitWorld_get_ok]
    simp [FitWorld.put, hi]
  refine ⟨_, _, e1, e2, ?_, ?_, g2, fun j hj hl => ⟨?_, ?_⟩⟩
  · rw [fitWorld_get_ok] at ho ⊢
    simp only [FitWorld.create]
    rw [List.getElem?_append_left hi]
    exact ho
  · rw [g2, fitWorld_get_ok]
    simp [FitWorld.create]
  · simp only [FitWorld.get, FitWorld.put]
    rw [List.getElem?_set_ne (Ne.symm hj)]
  · simp only [FitWorld.get, FitWorld.create]
    rw [List.getElem?_append_left hl]

/-- Any number of updates in place is the chain of updates, in the order given, and concerns no other object. -/
theorem C111_updates (code : FitCode M F D X V) (ds : List D) (w : FitWorld M F X) (i : ℕ) (o : FittedModel M F)
    (ho : w.get i = .ok o) :
    ∃ w', runFit code w (ds.map fun d => .updateInPlace i d) = .ok w' ∧
      w'.get i = .ok ⟨o.model, ds.foldl (code.updateImpl o.model) o.fit⟩ ∧
      ∀ j, j ≠ i → w'.get j = w.get j := by
  induction ds generalizing w o with
  | nil => exact ⟨w, rfl, ho, fun _ _ => rfl⟩
  | cons d t ih =>
    have hi := fitWorld_get_lt ho
    have e2 : (FitStmt.updateInPlace i d).exec code w =
        .ok (w.put i (some ⟨o.model, code.updateImpl o.model o.fit d⟩)) := by
      unfold FitStmt.exec
      simp [ho, except_ok_bind]
    have g2 : (w.put i (some ⟨o.model, code.updateImpl o.model o.fit d⟩)).get i =
        .ok ⟨o.model, code.updateImpl o.model o.fit d⟩ := by
      rw [fitWorld_get_ok]
      simp [FitWorld.put, hi]
    obtain ⟨w', h1, h2, h3⟩ := ih _ _ g2
    refine ⟨w', ?_, h2, fun j hj => ?_⟩
    · simp only [List.map_cons, runFit, e2, except_ok_bind]
      exact h1
    · rw [h3 j hj]
      simp only [FitWorld.get, FitWorld.put]
      rw [List.getElem?_set_ne (Ne.symm hj)]

example : (runFit sumCode ⟨[], []⟩ [.fit 1 2, .updateInPlace 0 10, .updateInPlace 0 20] >>= fun w => w.get 0) =
    .ok ⟨1, 33⟩ := by rfl

/-- A statement that does not touch an object leaves it as it is: copies are independent of the original, changing the
model of a const fitted model changes nothing, predicting from anything but an rvalue neither. -/
theorem C111_untouched (code : FitCode M F D X V) (w w' : FitWorld M F X) (prog : List (FitStmt M F D X))
    (h : runFit code w prog = .ok w') (i : ℕ) (hi : i < w.objects.length) (ht : ∀ s ∈ prog, ¬ s.Touches i) :
    w'.get i = w.get i := by
  obtain ⟨-, h2, -, -⟩ := run_frame h
  unfold FitWorld.get
  rw [h2 i hi ht]

end Albatross
