import Verif.Lemmas.Relabel
import Verif.Props.OptimizerInSpace
import Verif.Props.OptimizerCopy
import Mathlib.Analysis.SpecialFunctions.Pow.Real

/-!
Helper lemmas: every change of units gives a rescaled dimension, in exact arithmetic.
-/

namespace Skopt

/-- The rows that `Normalize` decodes: one number each, inside the unit interval. -/
noncomputable def unitCol (rows : List (List (Val ℝ))) : Except PyErr (List ℝ) := do
  let col ← mapE scalarRow rows
  let xs ← mapE Val.toNum col
  if xs.any (fun x => decide (exact.add (exact.ofInt 1) exact.eps < x)) then .error .valueError
  else if xs.any (fun x => decide (x < exact.sub (exact.ofInt 0) exact.eps)) then .error .valueError
  else .ok xs

theorem mapE_toNum_num (xs : List ℝ) : mapE Val.toNum (xs.map (Val.num (F := ℝ))) = .ok xs := by
  induction xs with
  | nil => rfl
  | cons x xs ih => exact mapE_cons_ok.2 ⟨x, xs, rfl, ih, rfl⟩

theorem unit_inverse {α : Type} (n : Normalize ℝ) (rows : List (List (Val ℝ))) (k : List ℝ → α) :
    (do let col ← mapE scalarRow rows
        let xs ← mapE Val.toNum col
        let ys ← n.inverse exact xs
        .ok (k ys) : Except PyErr α)
      = (unitCol rows).map fun xs => k (xs.map fun x =>
          if n.isInt then exact.ofInt (exact.round (x * (n.high - n.low) + n.low))
          else x * (n.high - n.low) + n.low) := by
  unfold unitCol
  cases mapE scalarRow rows with
  | error e => rfl
  | ok col =>
    simp only [ok_bind]
    cases mapE Val.toNum col with
    | error e => rfl
    | ok xs =>
      simp only [ok_bind]
      unfold Normalize.inverse
      split_ifs <;> rfl

theorem real_inverse_uniform (lo hi b : ℝ) (nm : Option String) (rows : List (List (Val ℝ))) :
    (Dim.real ⟨lo, hi, .uniform, b, .normalize, nm, id⟩).inverse exact rows
      = (unitCol rows).map (List.map fun x => .num (npClip lo hi (x * (hi - lo) + lo))) := by
  have := unit_inverse ⟨lo, hi, false⟩ rows (fun ys => ys.map fun y => Val.num (npClip lo hi y))
  simp only [List.map_map, Function.comp_def, Bool.false_eq_true, if_false] at this
  rw [show List.map (fun x => Val.num (npClip lo hi (x * (hi - lo) + lo))) = fun xs : List ℝ =>
    xs.map (fun x => Val.num (npClip lo hi (x * (hi - lo) + lo))) from rfl, ← this]
  simp only [Dim.inverse, RealDim.inverse, RealDim.transformer, Transformer.inverse, pipelineInverse,
    List.reverse_cons, List.reverse_nil, List.nil_append, List.cons_append, pipelineInverseLoop, Stage.inverse]
  cases mapE scalarRow rows with
  | error e => rfl
  | ok col =>
    simp only [ok_bind]
    cases mapE Val.toNum col with
    | error e => rfl
    | ok xs =>
      simp only [ok_bind]
      cases Normalize.inverse exact ⟨lo, hi, false⟩ xs with
      | error e => rfl
      | ok ys => simp only [ok_bind, mapE_toNum_num, id]

theorem real_inverse_log (lo hi b : ℝ) (nm : Option String) (rows : List (List (Val ℝ))) :
    (Dim.real ⟨lo, hi, .logUniform, b, .normalize, nm, id⟩).inverse exact rows
      = (unitCol rows).map (List.map fun x => .num (npClip lo hi (b ^ (x *
          (Real.logb 10 hi / Real.logb 10 b - Real.logb 10 lo / Real.logb 10 b)
            + Real.logb 10 lo / Real.logb 10 b)))) := by
  have := unit_inverse ⟨Real.logb 10 lo / Real.logb 10 b, Real.logb 10 hi / Real.logb 10 b, false⟩ rows
    (fun ys => ys.map fun y => Val.num (npClip lo hi (b ^ y)))
  simp only [List.map_map, Function.comp_def, Bool.false_eq_true, if_false] at this
  refine Eq.trans ?_ this
  simp only [Dim.inverse, RealDim.inverse, RealDim.transformer, Transformer.inverse, pipelineInverse,
    List.reverse_cons, List.reverse_nil, List.nil_append, List.cons_append, pipelineInverseLoop, Stage.inverse]
  cases mapE scalarRow rows with
  | error e => rfl
  | ok col =>
    simp only [ok_bind]
    cases mapE Val.toNum col with
    | error e => rfl
    | ok xs =>
      simp only [ok_bind]
      cases hn : Normalize.inverse exact ⟨Real.logb 10 lo / Real.logb 10 b, Real.logb 10 hi / Real.logb 10 b, false⟩ xs with
      | error e => 
        have hn' : Normalize.inverse exact ⟨exact.div (exact.log10 lo) (exact.log10 b), exact.div (exact.log10 hi) (exact.log10 b), false⟩ xs = .error e := hn
        simp only [hn']; rfl
      | ok ys => 
        have hn' : Normalize.inverse exact ⟨exact.div (exact.log10 lo) (exact.log10 b), exact.div (exact.log10 hi) (exact.log10 b), false⟩ xs = .ok ys := hn
        simp only [hn', ok_bind, mapE_toNum_num, id]
        rw [show (ys.map fun x => Val.num (logNInverse exact b x)) = (ys.map (logNInverse exact b)).map .num by simp, mapE_toNum_num]
        simp only [ok_bind, List.map_map]
        rfl

theorem int_inverse_uniform (l h b : ℝ) (nm : Option String) (rows : List (List (Val ℝ))) :
    (Dim.int ⟨l, h, .uniform, b, .normalize, nm, id⟩).inverse exact rows
      = (unitCol rows).map (List.map fun x => .num
          ((roundHalfEven (npClip l h ((roundHalfEven (x * (h - l) + l) : ℤ) : ℝ)) : ℤ) : ℝ)) := by
  have := unit_inverse ⟨l, h, true⟩ rows
    (fun ys => ys.map fun y => Val.num ((roundHalfEven (npClip l h y) : ℤ) : ℝ))
  simp only [List.map_map, Function.comp_def, if_true] at this
  refine Eq.trans ?_ this
  simp only [Dim.inverse, IntDim.inverse, IntDim.transformer, Transformer.inverse, pipelineInverse,
    List.reverse_cons, List.reverse_nil, List.nil_append, List.cons_append, pipelineInverseLoop, Stage.inverse]
  cases mapE scalarRow rows with
  | error e => rfl
  | ok col =>
    simp only [ok_bind]
    cases mapE Val.toNum col with
    | error e => rfl
    | ok xs =>
      simp only [ok_bind]
      cases Normalize.inverse exact ⟨l, h, true⟩ xs with
      | error e => rfl
      | ok ys => simp only [ok_bind, mapE_toNum_num, id]; rfl

theorem int_inverse_log (lo hi b : ℝ) (nm : Option String) (rows : List (List (Val ℝ))) :
    (Dim.int ⟨lo, hi, .logUniform, b, .normalize, nm, id⟩).inverse exact rows
      = (unitCol rows).map (List.map fun x => .num ((roundHalfEven (npClip lo hi (b ^ (x *
          (Real.logb 10 hi / Real.logb 10 b - Real.logb 10 lo / Real.logb 10 b)
            + Real.logb 10 lo / Real.logb 10 b))) : ℤ) : ℝ)) := by
  have := unit_inverse ⟨Real.logb 10 lo / Real.logb 10 b, Real.logb 10 hi / Real.logb 10 b, false⟩ rows
    (fun ys => ys.map fun y => Val.num ((roundHalfEven (npClip lo hi (b ^ y)) : ℤ) : ℝ))
  simp only [List.map_map, Function.comp_def, Bool.false_eq_true, if_false] at this
  refine Eq.trans ?_ this
  simp only [Dim.inverse, IntDim.inverse, IntDim.transformer, Transformer.inverse, pipelineInverse,
    List.reverse_cons, List.reverse_nil, List.nil_append, List.cons_append, pipelineInverseLoop, Stage.inverse]
  cases mapE scalarRow rows with
  | error e => rfl
  | ok col =>
    simp only [ok_bind]
    cases mapE Val.toNum col with
    | error e => rfl
    | ok xs =>
      simp only [ok_bind]
      cases hn : Normalize.inverse exact ⟨Real.logb 10 lo / Real.logb 10 b, Real.logb 10 hi / Real.logb 10 b, false⟩ xs with
      | error e => 
        have hn' : Normalize.inverse exact ⟨exact.div (exact.log10 lo) (exact.log10 b), exact.div (exact.log10 hi) (exact.log10 b), false⟩ xs = .error e := hn
        simp only [hn']; rfl
      | ok ys => 
        have hn' : Normalize.inverse exact ⟨exact.div (exact.log10 lo) (exact.log10 b), exact.div (exact.log10 hi) (exact.log10 b), false⟩ xs = .ok ys := hn
        simp only [hn', ok_bind, mapE_toNum_num, id]
        rw [show (ys.map fun x => Val.num (logNInverse exact b x)) = (ys.map (logNInverse exact b)).map .num by simp, mapE_toNum_num]
        simp only [ok_bind, List.map_map]
        rfl

/-! ### Encoding -/

theorem normalize_transform (n : Normalize ℝ) (hlh : n.low < n.high) {xs : List ℝ}
    (h : ∀ x ∈ xs, n.low ≤ (if n.isInt then ((roundHalfEven x : ℤ) : ℝ) else x) ∧
      (if n.isInt then ((roundHalfEven x : ℤ) : ℝ) else x) ≤ n.high) :
    n.transform exact xs = .ok (xs.map fun x =>
      ((if n.isInt then ((roundHalfEven x : ℤ) : ℝ) else x) - n.low) / (n.high - n.low)) := by
  have hne : ¬ (exact.sub n.high n.low = exact.ofInt 0) := by
    simp only [exact, Int.cast_zero]; linarith
  obtain ⟨lo, hi, i⟩ := n
  cases i with
  | true =>
    simp only [if_true] at h
    unfold Normalize.transform
    simp only [Bool.true_and, Bool.not_true, Bool.false_and]
    rw [if_neg, if_neg, if_neg (by simp), if_neg (by simp), if_neg hne, if_pos trivial]
    · simp only [if_true]; rfl
    · simp only [List.any_eq_true, decide_eq_true_eq, not_exists, not_and, not_lt]
      exact fun x hx => (h x hx).1
    · simp only [List.any_eq_true, decide_eq_true_eq, not_exists, not_and, not_lt]
      exact fun x hx => (h x hx).2
  | false =>
    simp only [Bool.false_eq_true, if_false] at h
    unfold Normalize.transform
    simp only [Bool.false_and, Bool.not_false, Bool.true_and]
    have he : (0 : ℝ) < exact.eps := by norm_num [exact]
    rw [if_neg (by simp), if_neg (by simp), if_neg, if_neg, if_neg hne, if_neg (by simp)]
    · rfl
    · simp only [List.any_eq_true, decide_eq_true_eq, not_exists, not_and, not_lt]
      intro x hx
      have := (h x hx).1
      change lo - exact.eps ≤ x
      linarith
    · simp only [List.any_eq_true, decide_eq_true_eq, not_exists, not_and, not_lt]
      intro x hx
      have := (h x hx).2
      change x ≤ hi + exact.eps
      linarith

theorem real_transform_uniform {lo hi : ℝ} (b : ℝ) (nm : Option String) (hlh : lo < hi) {xs : List ℝ}
    (h : ∀ x ∈ xs, lo ≤ x ∧ x ≤ hi) :
    (Dim.real ⟨lo, hi, .uniform, b, .normalize, nm, id⟩).transform exact (xs.map .num)
      = .ok (xs.map fun x => [.num ((x - lo) / (hi - lo))]) := by
  simp only [Dim.transform, Dim.transformer, RealDim.transformer, ok_bind, Transformer.transform,
    pipelineTransform, Stage.transform, mapE_toNum_num]
  rw [normalize_transform ⟨lo, hi, false⟩ hlh (by simpa using h)]
  simp [ok_bind, List.map_map, Function.comp_def]

theorem logs_mono {lo x b : ℝ} (hlo : 0 < lo) (hb : 1 < b) (h : lo ≤ x) :
    Real.logb 10 lo / Real.logb 10 b ≤ Real.logb 10 x / Real.logb 10 b := by
  have h1 : 0 < Real.logb 10 b := Real.logb_pos (by norm_num) hb
  exact div_le_div_of_nonneg_right (Real.logb_le_logb_of_le (by norm_num) hlo h) h1.le

theorem logs_strict {lo x b : ℝ} (hlo : 0 < lo) (hb : 1 < b) (h : lo < x) :
    Real.logb 10 lo / Real.logb 10 b < Real.logb 10 x / Real.logb 10 b := by
  have h1 : 0 < Real.logb 10 b := Real.logb_pos (by norm_num) hb
  exact div_lt_div_of_pos_right (Real.logb_lt_logb (by norm_num) hlo h) h1

theorem pipeline_log {lo hi b : ℝ} (hlo : 0 < lo) (hlh : lo < hi) (hb : 1 < b) {xs : List ℝ}
    (h : ∀ x ∈ xs, lo ≤ x ∧ x ≤ hi) :
    (Transformer.pipeline [.logN b, .normalize ⟨Real.logb 10 lo / Real.logb 10 b,
      Real.logb 10 hi / Real.logb 10 b, false⟩]).transform exact (xs.map .num)
      = .ok (xs.map fun x => [.num ((Real.logb 10 x / Real.logb 10 b - Real.logb 10 lo / Real.logb 10 b)
        / (Real.logb 10 hi / Real.logb 10 b - Real.logb 10 lo / Real.logb 10 b))]) := by
  simp only [ok_bind, Transformer.transform, pipelineTransform, Stage.transform, mapE_toNum_num]
  rw [show (xs.map fun x => Val.num (logNTransform exact b x))
    = (xs.map (logNTransform exact b)).map .num by simp, mapE_toNum_num]
  simp only [ok_bind]
  rw [normalize_transform _ (logs_strict hlo hb hlh)]
  · simp only [ok_bind, List.map_map]
    rfl
  · intro y hy
    obtain ⟨x, hx, rfl⟩ := List.mem_map.1 hy
    obtain ⟨h1, h2⟩ := h x hx
    exact ⟨logs_mono hlo hb h1, logs_mono (hlo.trans_le h1) hb h2⟩

theorem int_transform_uniform {l h : ℤ} (b : ℝ) (nm : Option String) (hlh : l < h) {xs : List ℝ}
    (hx : ∀ x ∈ xs, (l : ℝ) ≤ x ∧ x ≤ h) :
    (Dim.int ⟨(l : ℝ), (h : ℝ), .uniform, b, .normalize, nm, id⟩).transform exact (xs.map .num)
      = .ok (xs.map fun x => [.num ((((roundHalfEven x : ℤ) : ℝ) - l) / (h - l))]) := by
  simp only [Dim.transform, Dim.transformer, IntDim.transformer, ok_bind, Transformer.transform,
    pipelineTransform, Stage.transform, mapE_toNum_num]
  rw [normalize_transform ⟨l, h, true⟩ (show (l : ℝ) < h by exact_mod_cast hlh)]
  · simp [ok_bind, List.map_map, Function.comp_def]
  · intro x hxs
    obtain ⟨h1, h2⟩ := hx x hxs
    simp only [if_true]
    have m : Monotone (roundHalfEven (K := ℝ)) := exact_orderly.round_mono
    have k1 := m h1
    have k2 := m h2
    rw [roundHalfEven_intCast] at k1 k2
    exact ⟨by exact_mod_cast k1, by exact_mod_cast k2⟩

/-! ### Numeric dimensions -/

theorem Rescaled.ofNum {d d' : Dim ℝ} {g enc dec : ℝ → ℝ} (hc : d.isCat = false) (hc' : d'.isCat = false)
    (contains : ∀ x, d'.contains (.num (g x)) = d.contains (.num x))
    (t1 : ∀ xs : List ℝ, (∀ x ∈ xs, Within d (.num x)) →
      d.transform exact (xs.map .num) = .ok (xs.map fun x => [.num (enc x)]))
    (t2 : ∀ xs : List ℝ, (∀ x ∈ xs, Within d (.num x)) →
      d'.transform exact (xs.map fun x => .num (g x)) = .ok (xs.map fun x => [.num (enc x)]))
    (i1 : ∀ rows, d.inverse exact rows = (unitCol rows).map (List.map fun x => .num (dec x)))
    (i2 : ∀ rows, d'.inverse exact rows = (unitCol rows).map (List.map fun x => .num (g (dec x))))
    (hdec : ∀ x, Within d (.num (dec x)))
    (bounds : d'.transformedBounds exact = d.transformedBounds exact)
    (sampler : d'.sampler exact = d.sampler exact) : Rescaled exact d d' (onNum g) := by
  have hw : ∀ v, Within d v → ∃ x, v = .num x := by
    intro v hv
    cases d with
    | real r => obtain ⟨x, hx, _⟩ := hv; exact ⟨x, hx⟩
    | int r => obtain ⟨x, hx, _⟩ := hv; exact ⟨x, hx⟩
    | cat c => simp [Dim.isCat] at hc
  have inv : ∀ rows, d'.inverse exact rows = (d.inverse exact rows).map (List.map (onNum g)) := by
    intro rows
    rw [i1, i2]
    cases unitCol rows with
    | error e => rfl
    | ok xs => simp [Except.map, onNum]
  have invw : ∀ rows vs, d.inverse exact rows = .ok vs → ∀ v ∈ vs, Within d v := by
    intro rows vs h v hv
    rw [i1] at h
    cases hu : unitCol rows with
    | error e => rw [hu] at h; cases h
    | ok xs =>
      rw [hu] at h
      cases h
      obtain ⟨x, -, rfl⟩ := List.mem_map.1 hv
      exact hdec x
  have rv : ∀ (e : Dim ℝ), e.isCat = false → ∀ raw, e.rvs exact raw
      = e.inverse exact (raw.nums.map fun x => [.num x]) := by
    intro e he raw
    cases e with
    | real r => rfl
    | int r => rfl
    | cat c => simp [Dim.isCat] at he
  refine ⟨?_, ?_, ?_, inv, ?_, invw, ?_, bounds, ?_, by rw [hc, hc'], sampler⟩
  · intro v
    cases v with
    | num x => exact contains x
    | _ =>
      cases d <;> cases d' <;> first | rfl | (simp [Dim.isCat] at hc hc')
  · intro v; cases v <;> rfl
  · intro X hX
    obtain ⟨xs, rfl⟩ : ∃ xs : List ℝ, X = xs.map .num := by
      clear t1 t2
      induction X with
      | nil => exact ⟨[], rfl⟩
      | cons v X ih =>
        obtain ⟨x, rfl⟩ := hw v (hX v (by simp))
        obtain ⟨xs, rfl⟩ := ih fun u hu => hX u (by simp [hu])
        exact ⟨x :: xs, rfl⟩
    have hX' : ∀ x ∈ xs, Within d (.num x) := fun x hx => hX _ (List.mem_map_of_mem hx)
    rw [t1 xs hX', List.map_map]
    exact t2 xs hX'
  · intro raw
    rw [rv d hc, rv d' hc', inv]
  · intro raw vs h
    rw [rv d hc] at h
    exact invw _ _ h
  · cases d <;> cases d' <;> first | rfl | (simp [Dim.isCat] at hc hc')

theorem npClip_strictMono {g : ℝ → ℝ} {s : Set ℝ} (hg : MonotoneOn g s) {lo hi x : ℝ} (h1 : lo ∈ s)
    (h2 : hi ∈ s) (h3 : x ∈ s) : npClip (g lo) (g hi) (g x) = g (npClip lo hi x) := by
  unfold npClip
  have hm : max x lo ∈ s := by rcases max_choice x lo with h | h <;> rw [h] <;> assumption
  rw [← hg.map_max h3 h1, ← hg.map_min hm h2]

theorem rescaled_linear {lo hi : ℝ} (a c b b' : ℝ) (nm : Option String) (hlh : lo < hi) (ha : 0 < a) :
    Rescaled exact (.real ⟨lo, hi, .uniform, b, .normalize, nm, id⟩)
      (.real ⟨a * lo + c, a * hi + c, .uniform, b', .normalize, nm, id⟩) (onNum fun x => a * x + c) := by
  have hlh' : a * lo + c < a * hi + c := by nlinarith
  have hle : ∀ x y : ℝ, a * x + c ≤ a * y + c ↔ x ≤ y := fun x y => by
    rw [add_le_add_iff_right, mul_le_mul_iff_right₀ ha]
  refine Rescaled.ofNum (enc := fun x => (x - lo) / (hi - lo))
    (dec := fun x => npClip lo hi (x * (hi - lo) + lo)) rfl rfl ?_ ?_ ?_ ?_ ?_ ?_ rfl rfl
  · intro x
    simp only [Dim.contains, Val.toNum, ok_bind, hle]
  · intro xs h
    refine real_transform_uniform b nm hlh fun x hx => ?_
    obtain ⟨_, e, h1, h2⟩ := h x hx
    cases e
    exact ⟨h1, h2⟩
  · intro xs h
    have := real_transform_uniform b' nm hlh' (xs := xs.map fun x => a * x + c) (by
      intro y hy
      obtain ⟨x, hx, rfl⟩ := List.mem_map.1 hy
      obtain ⟨_, e, h1, h2⟩ := h x hx
      cases e
      exact ⟨(hle _ _).2 h1, (hle _ _).2 h2⟩)
    rw [List.map_map, List.map_map] at this
    refine this.trans ?_
    congr 1
    refine List.map_congr_left fun x _ => ?_
    simp only [Function.comp]
    congr 2
    have : hi - lo ≠ 0 := by linarith
    rw [div_eq_div_iff (by linarith) this]
    ring
  · exact real_inverse_uniform lo hi b nm
  · intro rows
    rw [real_inverse_uniform]
    congr 2
    funext x
    congr 1
    rw [← npClip_strictMono (g := fun x => a * x + c) (s := Set.univ)
      (fun x _ y _ h => (hle x y).2 h) trivial trivial trivial]
    congr 1
    ring
  · intro x
    exact ⟨_, rfl, npClip_mem hlh.le _⟩

/-! ### Logarithmic dimensions -/

/-- The log-uniform decoding of `x`, which does not depend on the base. -/
noncomputable def geo (lo hi x : ℝ) : ℝ := Real.exp (x * (Real.log hi - Real.log lo) + Real.log lo)

/-- The log-uniform encoding of `x`, which does not depend on the base. -/
noncomputable def logUnit (lo hi x : ℝ) : ℝ :=
  (Real.log x - Real.log lo) / (Real.log hi - Real.log lo)

theorem logb_div (b x : ℝ) : Real.logb 10 x / Real.logb 10 b = Real.log x / Real.log b := by
  unfold Real.logb
  have : Real.log 10 ≠ 0 := (Real.log_pos (by norm_num)).ne'
  rw [div_div_div_cancel_right₀ this]

theorem pow_geo {b : ℝ} (hb : 1 < b) (lo hi x : ℝ) :
    b ^ (x * (Real.logb 10 hi / Real.logb 10 b - Real.logb 10 lo / Real.logb 10 b)
      + Real.logb 10 lo / Real.logb 10 b) = geo lo hi x := by
  have h : Real.log b ≠ 0 := (Real.log_pos hb).ne'
  rw [logb_div, logb_div, Real.rpow_def_of_pos (by linarith)]
  unfold geo
  congr 1
  field_simp

theorem enc_logUnit {b : ℝ} (hb : 1 < b) (lo hi x : ℝ) :
    (Real.logb 10 x / Real.logb 10 b - Real.logb 10 lo / Real.logb 10 b)
        / (Real.logb 10 hi / Real.logb 10 b - Real.logb 10 lo / Real.logb 10 b) = logUnit lo hi x := by
  have h : Real.log b ≠ 0 := (Real.log_pos hb).ne'
  rw [logb_div, logb_div, logb_div, ← sub_div, ← sub_div, div_div_div_cancel_right₀ h]
  rfl

theorem real_inverse_geo {b : ℝ} (hb : 1 < b) (lo hi : ℝ) (nm : Option String) (rows : List (List (Val ℝ))) :
    (Dim.real ⟨lo, hi, .logUniform, b, .normalize, nm, id⟩).inverse exact rows
      = (unitCol rows).map (List.map fun x => .num (npClip lo hi (geo lo hi x))) := by
  rw [real_inverse_log]
  simp only [pow_geo hb]

theorem int_inverse_geo {b : ℝ} (hb : 1 < b) (lo hi : ℝ) (nm : Option String) (rows : List (List (Val ℝ))) :
    (Dim.int ⟨lo, hi, .logUniform, b, .normalize, nm, id⟩).inverse exact rows
      = (unitCol rows).map (List.map fun x => .num ((roundHalfEven (npClip lo hi (geo lo hi x)) : ℤ) : ℝ)) := by
  rw [int_inverse_log]
  simp only [pow_geo hb]

theorem real_transform_log {lo hi b : ℝ} (hlo : 0 < lo) (hlh : lo < hi) (hb : 1 < b) (nm : Option String)
    {xs : List ℝ} (h : ∀ x ∈ xs, lo ≤ x ∧ x ≤ hi) :
    (Dim.real ⟨lo, hi, .logUniform, b, .normalize, nm, id⟩).transform exact (xs.map .num)
      = .ok (xs.map fun x => [.num (logUnit lo hi x)]) := by
  have := pipeline_log hlo hlh hb h
  simp only [enc_logUnit hb] at this
  exact this

theorem int_transform_log {lo hi b : ℝ} (hlo : 0 < lo) (hlh : lo < hi) (hb : 1 < b) (nm : Option String)
    {xs : List ℝ} (h : ∀ x ∈ xs, lo ≤ x ∧ x ≤ hi) :
    (Dim.int ⟨lo, hi, .logUniform, b, .normalize, nm, id⟩).transform exact (xs.map .num)
      = .ok (xs.map fun x => [.num (logUnit lo hi x)]) := by
  have := pipeline_log hlo hlh hb h
  simp only [enc_logUnit hb] at this
  exact this

theorem rescaled_power {lo hi : ℝ} (a c : ℝ) {b b' : ℝ} (nm : Option String) (hlo : 0 < lo) (hlh : lo < hi)
    (ha : 0 < a) (hc : 0 < c) (hb : 1 < b) (hb' : 1 < b') :
    Rescaled exact (.real ⟨lo, hi, .logUniform, b, .normalize, nm, id⟩)
        (.real ⟨c * lo ^ a, c * hi ^ a, .logUniform, b', .normalize, nm, id⟩)
        (onNum fun x => if 0 < x then c * x ^ a else x) := by
  have hhi : 0 < hi := hlo.trans hlh
  have hmono : ∀ x y : ℝ, 0 < x → 0 < y → (c * x ^ a ≤ c * y ^ a ↔ x ≤ y) := by
    intro x y hx hy
    rw [mul_le_mul_iff_right₀ hc, Real.rpow_le_rpow_iff hx.le hy.le ha]
  have hpos : ∀ x : ℝ, 0 < x → 0 < c * x ^ a := fun x hx => mul_pos hc (Real.rpow_pos_of_pos hx a)
  have hlog : ∀ x : ℝ, 0 < x → Real.log (c * x ^ a) = Real.log c + a * Real.log x := by
    intro x hx
    rw [Real.log_mul hc.ne' (Real.rpow_pos_of_pos hx a).ne', Real.log_rpow hx]
  have hlh' : c * lo ^ a < c * hi ^ a := by
    refine lt_of_le_of_ne ((hmono _ _ hlo hhi).2 hlh.le) fun h => ?_
    exact absurd ((hmono _ _ hhi hlo).1 h.ge) (not_le.2 hlh)
  have hne : Real.log hi - Real.log lo ≠ 0 := (sub_pos.2 (Real.log_lt_log hlo hlh)).ne'
  have hgeo : ∀ x, geo (c * lo ^ a) (c * hi ^ a) x = c * geo lo hi x ^ a := by
    intro x
    unfold geo
    rw [hlog _ hlo, hlog _ hhi, ← Real.exp_mul]
    conv_rhs => rw [← Real.exp_log hc, ← Real.exp_add]
    congr 1
    ring
  refine Rescaled.ofNum (enc := logUnit lo hi) (dec := fun x => npClip lo hi (geo lo hi x))
    rfl rfl ?_ ?_ ?_ ?_ ?_ ?_ rfl rfl
  · intro x
    by_cases hx : 0 < x
    · simp only [hx, if_true, Dim.contains, Val.toNum, ok_bind, hmono _ _ hlo hx, hmono _ _ hx hhi]
    · simp only [hx, if_false, Dim.contains, Val.toNum, ok_bind]
      have h1 : ¬ lo ≤ x := fun h => hx (hlo.trans_le h)
      have h2 : ¬ c * lo ^ a ≤ x := fun h => hx ((hpos _ hlo).trans_le h)
      simp [h1, h2]
  · intro xs h
    refine real_transform_log hlo hlh hb nm fun x hx => ?_
    obtain ⟨_, e, h1, h2⟩ := h x hx
    cases e
    exact ⟨h1, h2⟩
  · intro xs h
    have hx0 : ∀ x ∈ xs, 0 < x ∧ lo ≤ x ∧ x ≤ hi := by
      intro x hx
      obtain ⟨_, e, h1, h2⟩ := h x hx
      cases e
      exact ⟨hlo.trans_le h1, h1, h2⟩
    have := real_transform_log (hpos _ hlo) hlh' hb' nm (xs := xs.map fun x => if 0 < x then c * x ^ a else x) (by
      intro y hy
      obtain ⟨x, hx, rfl⟩ := List.mem_map.1 hy
      obtain ⟨h0, h1, h2⟩ := hx0 x hx
      rw [if_pos h0]
      exact ⟨(hmono _ _ hlo h0).2 h1, (hmono _ _ h0 hhi).2 h2⟩)
    rw [List.map_map, List.map_map] at this
    refine this.trans ?_
    congr 1
    refine List.map_congr_left fun x hx => ?_
    simp only [Function.comp, if_pos (hx0 x hx).1]
    congr 2
    unfold logUnit
    rw [hlog _ hlo, hlog _ hhi, hlog _ (hx0 x hx).1, add_sub_add_left_eq_sub, add_sub_add_left_eq_sub,
      ← mul_sub, ← mul_sub, mul_div_mul_left _ _ ha.ne']
  · exact real_inverse_geo hb lo hi nm
  · intro rows
    rw [real_inverse_geo hb']
    congr 2
    funext x
    have hg : 0 < geo lo hi x := Real.exp_pos _
    have hcl : 0 < npClip lo hi (geo lo hi x) := hlo.trans_le (npClip_mem hlh.le _).1
    rw [if_pos hcl, hgeo, npClip_strictMono (g := fun x => c * x ^ a) (s := Set.Ioi 0)
      (fun x hx y hy h => (hmono x y hx hy).2 h) hlo hhi hg]
  · intro x
    exact ⟨_, rfl, npClip_mem hlh.le _⟩

theorem round_clip_mem {l h : ℤ} (hlh : l < h) (x : ℝ) :
    (l : ℝ) ≤ ((roundHalfEven (npClip (l : ℝ) h x) : ℤ) : ℝ) ∧
      ((roundHalfEven (npClip (l : ℝ) h x) : ℤ) : ℝ) ≤ h := by
  have m : Monotone (roundHalfEven (K := ℝ)) := exact_orderly.round_mono
  have hc := npClip_mem (show (l : ℝ) ≤ h by exact_mod_cast hlh.le) x
  have k1 := m hc.1
  have k2 := m hc.2
  rw [roundHalfEven_intCast] at k1 k2
  exact ⟨by exact_mod_cast k1, by exact_mod_cast k2⟩

theorem onNum_id {F : Type} : onNum (id : F → F) = id := by
  funext v
  cases v <;> rfl

theorem rescaled_base {l h : ℤ} {b b' : ℝ} (nm : Option String) (hl : 0 < l) (hlh : l < h) (hb : 1 < b)
    (hb' : 1 < b') :
    Rescaled exact (.int ⟨(l : ℝ), (h : ℝ), .logUniform, b, .normalize, nm, id⟩)
        (.int ⟨(l : ℝ), (h : ℝ), .logUniform, b', .normalize, nm, id⟩) id := by
  have hl' : (0 : ℝ) < l := by exact_mod_cast hl
  have hlh' : (l : ℝ) < h := by exact_mod_cast hlh
  rw [← onNum_id]
  have hw : ∀ xs : List ℝ, (∀ x ∈ xs, Within
      (.int ⟨(l : ℝ), (h : ℝ), .logUniform, b, .normalize, nm, id⟩) (.num x)) →
      ∀ x ∈ xs, (l : ℝ) ≤ x ∧ x ≤ h := by
    intro xs hx x hxs
    obtain ⟨_, e, h1, h2⟩ := hx x hxs
    cases e
    exact ⟨h1, h2⟩
  refine Rescaled.ofNum (enc := logUnit l h)
    (dec := fun x => ((roundHalfEven (npClip (l : ℝ) h (geo l h x)) : ℤ) : ℝ))
    rfl rfl (fun _ => rfl) ?_ ?_ ?_ ?_ ?_ rfl rfl
  · exact fun xs hx => int_transform_log hl' hlh' hb nm (hw xs hx)
  · exact fun xs hx => int_transform_log hl' hlh' hb' nm (hw xs hx)
  · exact int_inverse_geo hb l h nm
  · exact int_inverse_geo hb' l h nm
  · intro x
    exact ⟨_, rfl, round_clip_mem hlh _⟩

theorem roundHalfEven_add_even (x : ℝ) (k : ℤ) :
    roundHalfEven (x + ((2 * k : ℤ) : ℝ)) = roundHalfEven x + 2 * k := by
  unfold roundHalfEven
  rw [Int.fract_add_intCast, Int.floor_add_intCast]
  have : (⌊x⌋ + 2 * k) % 2 = ⌊x⌋ % 2 := by omega
  rw [this]
  split_ifs <;> ring

theorem rescaled_shift {l h : ℤ} (k : ℤ) (b b' : ℝ) (nm : Option String) (hlh : l < h) :
    Rescaled exact (.int ⟨(l : ℝ), (h : ℝ), .uniform, b, .normalize, nm, id⟩)
        (.int ⟨((l + 2 * k : ℤ) : ℝ), ((h + 2 * k : ℤ) : ℝ), .uniform, b', .normalize, nm, id⟩)
        (onNum fun x => x + (2 * k : ℤ)) := by
  have hlh' : l + 2 * k < h + 2 * k := by omega
  have hw : ∀ xs : List ℝ, (∀ x ∈ xs, Within
      (.int ⟨(l : ℝ), (h : ℝ), .uniform, b, .normalize, nm, id⟩) (.num x)) →
      ∀ x ∈ xs, (l : ℝ) ≤ x ∧ x ≤ h := by
    intro xs hx x hxs
    obtain ⟨_, e, h1, h2⟩ := hx x hxs
    cases e
    exact ⟨h1, h2⟩
  refine Rescaled.ofNum (enc := fun x => (((roundHalfEven x : ℤ) : ℝ) - l) / (h - l))
    (dec := fun x => ((roundHalfEven (npClip (l : ℝ) h ((roundHalfEven (x * (h - l) + l) : ℤ) : ℝ)) : ℤ) : ℝ))
    rfl rfl ?_ ?_ ?_ ?_ ?_ ?_ rfl rfl
  · intro x
    simp only [Dim.contains, Val.toNum, ok_bind, Int.cast_add (R := ℝ), add_le_add_iff_right]
  · exact fun xs hx => int_transform_uniform b nm hlh (hw xs hx)
  · intro xs hx
    have := int_transform_uniform b' nm hlh' (xs := xs.map fun x => x + ((2 * k : ℤ) : ℝ)) (by
      intro y hy
      obtain ⟨x, hxs, rfl⟩ := List.mem_map.1 hy
      obtain ⟨h1, h2⟩ := hw xs hx x hxs
      rw [Int.cast_add, Int.cast_add]
      exact ⟨by linarith, by linarith⟩)
    rw [List.map_map, List.map_map] at this
    refine this.trans ?_
    congr 1
    refine List.map_congr_left fun x _ => ?_
    simp only [Function.comp, roundHalfEven_add_even]
    congr 3
    · push_cast; ring
    · push_cast; ring
  · exact int_inverse_uniform l h b nm
  · intro rows
    rw [int_inverse_uniform]
    congr 2
    funext x
    congr 1
    have e1 : x * (((h + 2 * k : ℤ) : ℝ) - ((l + 2 * k : ℤ) : ℝ)) + ((l + 2 * k : ℤ) : ℝ)
        = (x * (h - l) + l) + ((2 * k : ℤ) : ℝ) := by push_cast; ring
    rw [e1, roundHalfEven_add_even, Int.cast_add, Int.cast_add, Int.cast_add,
      npClip_strictMono (g := fun x => x + ((2 * k : ℤ) : ℝ)) (s := Set.univ)
        (fun x _ y _ h => by simpa using h) trivial trivial trivial, roundHalfEven_add_even, Int.cast_add]
  · intro x
    exact ⟨_, rfl, round_clip_mem hlh _⟩

/-! ### Categories -/

section Cats
variable {F : Type} [LinearOrder F] {A : Arith F}

theorem dictGet_map_val {K V V' : Type} [DecidableEq K] (g : V → V') (d : List (K × V)) (k : K) :
    dictGet (d.map fun p => (p.1, g p.2)) k = (dictGet d k).map g := by
  unfold dictGet
  rw [List.find?_map]
  simp only [Function.comp_def]
  cases d.find? (fun p => decide (p.1 = k)) <;> rfl

theorem dictGet_map_key {K K' V : Type} [DecidableEq K] [DecidableEq K'] {g : K → K'}
    (hg : Function.Injective g) (d : List (K × V)) (k : K) :
    dictGet (d.map fun p => (g p.1, p.2)) (g k) = dictGet d k := by
  unfold dictGet
  rw [List.find?_map]
  simp only [Function.comp_def, hg.eq_iff]
  cases d.find? (fun p => decide (p.1 = k)) <;> rfl

theorem zipIdx_map' {α β : Type} (g : α → β) (xs : List α) :
    (xs.map g).zipIdx = xs.zipIdx.map fun p => (g p.1, p.2) := by
  rw [List.zipIdx_map]
  rfl

theorem Except_map_id {α : Type} (x : Except PyErr α) : Except.map id x = x := by
  cases x <;> rfl

theorem mapE_map_in {α β γ : Type} (f : β → Except PyErr γ) (g : α → β) (xs : List α) :
    mapE f (xs.map g) = mapE (f ∘ g) xs := by
  induction xs with
  | nil => rfl
  | cons x xs ih => simp only [List.map_cons, mapE, ih, Function.comp]

theorem _root_.Function.Injective.mem_map_iff' {α β : Type} {f : α → β} (hf : Function.Injective f)
    {xs : List α} {a : α} : f a ∈ xs.map f ↔ a ∈ xs := by
  simp [hf.eq_iff]

omit [LinearOrder F] in
theorem Renaming.homogeneous {f : Val F → Val F} (hf : Renaming f) {cats : List (Val F)} (h : Homogeneous cats) :
    Homogeneous (cats.map f) := by
  refine ⟨?_, ?_⟩
  · intro v hv
    obtain ⟨w, hw, rfl⟩ := List.mem_map.1 hv
    rw [hf.isSeq]
    exact h.1 w hw
  · rcases h.2 with h2 | h2
    · left
      intro v hv
      obtain ⟨w, hw, rfl⟩ := List.mem_map.1 hv
      rw [hf.isStr]
      exact h2 w hw
    · right
      intro v hv
      obtain ⟨w, hw, rfl⟩ := List.mem_map.1 hv
      rw [hf.isNum]
      exact h2 w hw

omit [LinearOrder F] in
theorem mapE_dictGet_swap (f : Val F → Val F) (keys : List (Val F)) (ks : List Nat) :
    mapE (dictGet ((keys.map f).zipIdx.map fun p => (p.2, p.1))) ks
      = (mapE (dictGet (keys.zipIdx.map fun p => (p.2, p.1))) ks).map (List.map f) := by
  rw [← mapE_map_out]
  congr 1
  funext k
  rw [zipIdx_map', List.map_map, ← dictGet_map_val, List.map_map]
  rfl

theorem rescaled_onehot (hA : OrderlyRounding A) {cats : List (Val F)} {f : Val F → Val F} (pr : Option (List F)) (nm : Option String)
    (str str' : Val F → String) (cs cs' : String → Except PyErr (Val F)) (hf : Renaming f)
    (hne : cats ≠ []) (hnd : cats.Nodup) (hh : Homogeneous cats) :
    Rescaled A (.cat ⟨cats, pr, .onehot, nm, str, cs⟩) (.cat ⟨cats.map f, pr, .onehot, nm, str', cs'⟩) f := by
  have hne' : cats.map f ≠ [] := by simpa using hne
  have hnd' : (cats.map f).Nodup := hnd.map hf.injective
  have hh' := hf.homogeneous hh
  have e1 := OneHot.fit_nodup hnd hne
  have e2 := OneHot.fit_nodup hnd' hne'
  have inv : ∀ rows, (Dim.cat ⟨cats.map f, pr, .onehot, nm, str', cs'⟩).inverse A rows
      = ((Dim.cat ⟨cats, pr, .onehot, nm, str, cs⟩).inverse A rows).map (List.map f) := by
    intro rows
    simp only [Dim.inverse, CatDim.inverse, CatDim.transformer, e1, e2, ok_bind, Transformer.inverse,
      OneHot.inverseTransform, List.length_map]
    cases mapE (mapE Val.toNum) rows with
    | error e => rfl
    | ok rs =>
      simp only [ok_bind]
      cases unbinarize A (List.range cats.length) rs with
      | error e => rfl
      | ok ks =>
        simp only [ok_bind, mapE_dictGet_swap]
        cases hm : mapE (dictGet (cats.zipIdx.map fun p => (p.2, p.1))) ks with
        | error e => rfl
        | ok vs =>
          simp only [Except.map_ok', ok_bind]
          have hmem : ∀ v ∈ vs, v ∈ cats := by
            intro v hv
            obtain ⟨k, -, hk⟩ := mapE_mem hm hv
            exact List.mem_of_getElem? (dictGet_swap_inv hk)
          have h1 := hh.subset hmem
          rw [h1.npArray, (hf.homogeneous h1).npArray]
          rfl
  refine ⟨?_, hf.isSeq, ?_, inv, ?_, ?_, ?_, ?_, ?_, rfl, ?_⟩
  · intro v
    simp [Dim.contains, hf.injective.mem_map_iff']
  · intro X hX
    simp only [Dim.transform, Dim.transformer, CatDim.transformer, e1, e2, ok_bind, Transformer.transform,
      OneHot.transform, List.length_map]
    rw [mapE_map_in]
    congr 1
    funext v
    simp only [Function.comp]
    rw [zipIdx_map', dictGet_map_key hf.injective]
  · intro raw
    simp only [Dim.rvs]
    rw [← mapE_map_out]
    congr 1
    funext i
    exact pyGet_map f cats i
  · intro rows vs h v hv
    exact Dim.inverse_legal (A := A) (d := .cat ⟨cats, pr, .onehot, nm, str, cs⟩) hA ⟨hne, hnd, hh⟩ (Or.inl rfl) h v hv
  · intro raw vs h v hv
    exact Dim.rvs_legal (A := A) (d := .cat ⟨cats, pr, .onehot, nm, str, cs⟩) hA ⟨hne, hnd, hh⟩ h v hv
  · simp [Dim.transformedBounds, Dim.transformedSize]
  · simp [Dim.transformedSize]
  · simp [Dim.sampler]

theorem labelKeys_map {cats : List (Val F)} {f : Val F → Val F} (hf : Renaming f)
    (hle : ∀ a ∈ cats, ∀ b ∈ cats, valLe (f a) (f b) = valLe a b) :
    labelKeys (cats.map f) = (labelKeys cats).map f := by
  have ho : isObjectDtype (cats.map f) = isObjectDtype cats := by
    unfold isObjectDtype
    rw [List.any_map]
    congr 1
    funext v
    exact hf.isObj v
  unfold labelKeys
  rw [ho]
  split
  · rfl
  · unfold npUnique
    rw [List.dedup_map_of_injective hf.injective]
    refine (List.map_insertionSort _ _ f _ ?_).symm
    intro a ha b hb
    rw [hle a (List.mem_dedup.1 ha) b (List.mem_dedup.1 hb)]

theorem rescaled_normalized (hA : OrderlyRounding A) {cats : List (Val F)} {f : Val F → Val F}
    (pr : Option (List F)) (nm : Option String)
    (str str' : Val F → String) (cs cs' : String → Except PyErr (Val F)) (hf : Renaming f)
    (hle : ∀ a ∈ cats, ∀ b ∈ cats, valLe (f a) (f b) = valLe a b)
    (hne : cats ≠ []) (hnd : cats.Nodup) (hh : Homogeneous cats) :
    Rescaled A (.cat ⟨cats, pr, .normalize, nm, str, cs⟩)
      (.cat ⟨cats.map f, pr, .normalize, nm, str', cs'⟩) f := by
  have hne' : cats.map f ≠ [] := by simpa using hne
  have hnd' : (cats.map f).Nodup := hnd.map hf.injective
  have hh' := hf.homogeneous hh
  have e1 := LabelEnc.fit_valid A hnd hh
  have e2 := LabelEnc.fit_valid A hnd' hh'
  rw [labelKeys_map hf hle] at e2
  have inv : ∀ rows, (Dim.cat ⟨cats.map f, pr, .normalize, nm, str', cs'⟩).inverse A rows
      = ((Dim.cat ⟨cats, pr, .normalize, nm, str, cs⟩).inverse A rows).map (List.map f) := by
    intro rows
    simp only [Dim.inverse, CatDim.inverse, CatDim.transformer, e1, e2, ok_bind, Transformer.inverse,
      pipelineInverse, List.reverse_cons, List.reverse_nil, List.nil_append, List.cons_append,
      pipelineInverseLoop, Stage.inverse, List.length_map]
    cases mapE scalarRow rows with
    | error e => rfl
    | ok col =>
      simp only [ok_bind]
      cases mapE Val.toNum col with
      | error e => rfl
      | ok xs =>
        simp only [ok_bind]
        cases Normalize.inverse A ⟨A.ofInt 0, A.ofInt ((cats.length : ℤ) - 1), true⟩ xs with
        | error e => rfl
        | ok ys =>
          simp only [ok_bind]
          rw [show mapE Val.toNum (ys.map (Val.num (F := F))) = .ok ys from
            mapE_toNum_map ys]
          simp only [ok_bind, LabelEnc.inverseTransform]
          have key : (mapE (fun x => if A.round x < 0 then .error .keyError else
              dictGet (((labelKeys cats).map f).zipIdx.map fun p => (p.2, p.1)) (A.round x).toNat) ys)
              = (mapE (fun x => if A.round x < 0 then .error .keyError else
                dictGet ((labelKeys cats).zipIdx.map fun p => (p.2, p.1)) (A.round x).toNat) ys).map
                  (List.map f) := by
            rw [← mapE_map_out]
            congr 1
            funext x
            split
            · rfl
            · rw [zipIdx_map', List.map_map, ← dictGet_map_val, List.map_map]
              rfl
          rw [key]
          cases hm : (mapE (fun x => if A.round x < 0 then .error .keyError else
                dictGet ((labelKeys cats).zipIdx.map fun p => (p.2, p.1)) (A.round x).toNat) ys) with
          | error e => rfl
          | ok vs =>
            simp only [Except.map_ok', ok_bind]
            have hmem : ∀ v ∈ vs, v ∈ cats := by
              intro v hv
              obtain ⟨x, -, hk⟩ := mapE_mem hm hv
              split at hk
              · cases hk
              · exact mem_labelKeys.1 (List.mem_of_getElem? (dictGet_swap_inv hk))
            have h1 := hh.subset hmem
            rw [h1.npArray, (hf.homogeneous h1).npArray]
            rfl
  refine ⟨?_, hf.isSeq, ?_, inv, ?_, ?_, ?_, ?_, ?_, rfl, ?_⟩
  · intro v
    simp [Dim.contains, hf.injective.mem_map_iff']
  · intro X hX
    simp only [Dim.transform, Dim.transformer, CatDim.transformer, e1, e2, ok_bind, Transformer.transform,
      pipelineTransform, Stage.transform, LabelEnc.transform, List.length_map]
    have h1 := hh.subset (xs := X) hX
    rw [h1.npArray, (hf.homogeneous h1).npArray]
    simp only [ok_bind]
    rw [mapE_map_in]
    have : ((fun v => (dictGet ((labelKeys cats).map f).zipIdx v).bind
        fun i => Except.ok (Val.num (A.ofInt i))) ∘ f) = fun v => (dictGet (labelKeys cats).zipIdx v).bind
        fun i => Except.ok (Val.num (A.ofInt i)) := by
      funext v
      simp only [Function.comp]
      rw [zipIdx_map', dictGet_map_key hf.injective]
    erw [this]
    rfl
  · intro raw
    exact inv _
  · intro rows vs h v hv
    exact Dim.inverse_legal (A := A) (d := .cat ⟨cats, pr, .normalize, nm, str, cs⟩) hA ⟨hne, hnd, hh⟩ (Or.inr (Or.inr rfl)) h v hv
  · intro raw vs h v hv
    exact Dim.rvs_legal (A := A) (d := .cat ⟨cats, pr, .normalize, nm, str, cs⟩) hA ⟨hne, hnd, hh⟩ h v hv
  · simp [Dim.transformedBounds, Dim.transformedSize]
  · simp [Dim.transformedSize]
  · simp [Dim.sampler]

/-! ### Names and composition -/

theorem rescaled_name (hA : OrderlyRounding A) {d : Dim F} (nm : Option String) (hv : ValidDim A d)
    (hd : Decoding d) : Rescaled A d (d.rename nm) id := by
  refine ⟨?_, fun _ => rfl, ?_, ?_, ?_, ?_, ?_, ?_, ?_, ?_, ?_⟩
  · intro v; cases d <;> rfl
  · intro X _; rw [List.map_id]; cases d <;> rfl
  · intro rows
    rw [show List.map (id : Val F → Val F) = id from by funext; simp, Except_map_id]
    cases d <;> rfl
  · intro rows
    rw [show List.map (id : Val F → Val F) = id from by funext; simp, Except_map_id]
    cases d <;> rfl
  · exact fun rows vs h v hv' => Legal.within (Dim.inverse_legal hA hv hd h v hv')
  · exact fun raw vs h v hv' => Legal.within (Dim.rvs_legal hA hv h v hv')
  all_goals cases d <;> rfl

theorem within_iff_contains {d : Dim F} {v : Val F} : Within d v ↔ d.contains v = .ok true := by
  cases d with
  | real r => cases v <;> simp [Within, Dim.contains, Val.toNum, error_bind, ok_bind]
  | int r => cases v <;> simp [Within, Dim.contains, Val.toNum, error_bind, ok_bind]
  | cat c => simp [Within, Dim.contains]

theorem Rescaled.trans {d d' d'' : Dim F} {f g : Val F → Val F} (h : Rescaled A d d' f)
    (h' : Rescaled A d' d'' g) : Rescaled A d d'' (g ∘ f) := by
  refine ⟨?_, ?_, ?_, ?_, ?_, h.inverse_within, h.rvs_within, h'.bounds.trans h.bounds,
    h'.size.trans h.size, h'.isCat.trans h.isCat, h'.sampler.trans h.sampler⟩
  · intro v; exact (h'.contains _).trans (h.contains v)
  · intro v; exact (h'.isSeq _).trans (h.isSeq v)
  · intro X hX
    rw [← List.map_map, h'.transform, h.transform X hX]
    intro v hv
    obtain ⟨w, hw, rfl⟩ := List.mem_map.1 hv
    rw [within_iff_contains, h.contains]
    exact within_iff_contains.1 (hX w hw)
  · intro rows
    rw [h'.inverse, h.inverse]
    cases d.inverse A rows with
    | error e => rfl
    | ok vs => simp [Except.map]
  · intro rows
    rw [h'.rvs, h.rvs]
    cases d.rvs A rows with
    | error e => rfl
    | ok vs => simp [Except.map]

end Cats

theorem UnitChange.rescaled {d d' : Dim ℝ} {f : Val ℝ → Val ℝ} (h : UnitChange d d' f) :
    Rescaled exact d d' f := by
  induction h with
  | name nm hv hd => exact rescaled_name exact_orderly nm hv hd
  | linear a c b b' nm hlh ha => exact rescaled_linear a c b b' nm hlh ha
  | power a c nm hlo hlh ha hc hb hb' => exact rescaled_power a c nm hlo hlh ha hc hb hb'
  | shift k b b' nm hlh => exact rescaled_shift k b b' nm hlh
  | base nm hl hlh hb hb' => exact rescaled_base nm hl hlh hb hb'
  | onehot pr nm str str' cs cs' hf hne hnd hh =>
    exact rescaled_onehot exact_orderly pr nm str str' cs cs' hf hne hnd hh
  | normalized pr nm str str' cs cs' hf hle hne hnd hh =>
    exact rescaled_normalized exact_orderly pr nm str str' cs cs' hf hle hne hnd hh
  | trans _ _ ih ih' => exact ih.trans ih'

theorem UnitChanges.rescales {ds ds' : List (Dim ℝ)} {fs : List (Val ℝ → Val ℝ)} (h : UnitChanges ds ds' fs) :
    Rescales exact ds ds' fs := by
  induction h with
  | nil => exact .nil
  | cons h _ ih => exact .cons h.rescaled ih

end Skopt
