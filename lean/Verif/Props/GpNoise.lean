import Verif.Props.GaussianProcess

/-!
# C57: which noise `fit` removes
-/

namespace Skopt

variable {d : Nat}

/-- The levels of the white kernels among the terms of a sum, in the order in which they are written. -/
def noiseLevels : Kernel d → List ℝ
  | .white v => [v]
  | .sum a b => noiseLevels a ++ noiseLevels b
  | _ => []

theorem isWhite_spec {k : Kernel d} {v : ℝ} (h : k.isWhite = some v) : k = .white v := by
  cases k <;> simp [Kernel.isWhite] at h
  rw [h]

theorem zeroWhite_spec (k : Kernel d) (hk : k.isWhite = none) :
    (noiseLevels k = [] → k.zeroWhite = none) ∧
    ∀ v vs, noiseLevels k = v :: vs → ∃ k', k.zeroWhite = some (v, k') ∧ noiseLevels k' = 0 :: vs ∧
      (∀ x y, k'.value x y = k.value x y) ∧ ∀ x, k'.diag x = k.diag x - v := by
  induction k with
  | sum a b iha ihb =>
    cases ha : a.isWhite with
    | some w =>
      rw [isWhite_spec ha]
      refine ⟨fun h => by simp [noiseLevels] at h, fun v vs h => ?_⟩
      simp only [noiseLevels, List.singleton_append, List.cons.injEq] at h
      obtain ⟨rfl, rfl⟩ := h
      refine ⟨.sum (.white 0) b, by simp [Kernel.zeroWhite, Kernel.isWhite], by simp [noiseLevels], fun x y => ?_,
        fun x => ?_⟩
      · simp [Kernel.value]
      · simp [Kernel.diag]
    | none =>
      obtain ⟨a1, a2⟩ := iha ha
      cases hla : noiseLevels a with
      | cons w ws =>
        refine ⟨fun h => by simp [noiseLevels, hla] at h, fun v vs h => ?_⟩
        simp only [noiseLevels, hla, List.cons_append, List.cons.injEq] at h
        obtain ⟨rfl, rfl⟩ := h
        obtain ⟨a', h1, h2, h3, h4⟩ := a2 w ws hla
        refine ⟨.sum a' b, by simp [Kernel.zeroWhite, ha, h1], by simp [noiseLevels, h2], fun x y => ?_, fun x => ?_⟩
        · simp [Kernel.value, h3]
        · simp only [Kernel.diag, h4]
          ring
      | nil =>
        have hz := a1 hla
        cases hb : b.isWhite with
        | some w =>
          rw [isWhite_spec hb]
          refine ⟨fun h => by simp [noiseLevels] at h, fun v vs h => ?_⟩
          simp only [noiseLevels, hla, List.nil_append, List.cons.injEq] at h
          obtain ⟨rfl, rfl⟩ := h
          refine ⟨.sum a (.white 0), by simp [Kernel.zeroWhite, ha, hz]; simp [Kernel.isWhite],
            by simp [noiseLevels, hla], fun x y => ?_, fun x => ?_⟩
          · simp [Kernel.value]
          · simp [Kernel.diag]
        | none =>
          obtain ⟨b1, b2⟩ := ihb hb
          refine ⟨fun h => ?_, fun v vs h => ?_⟩
          · have : noiseLevels b = [] := by simpa [noiseLevels, hla] using h
            simp [Kernel.zeroWhite, ha, hz, hb, b1 this]
          · have : noiseLevels b = v :: vs := by simpa [noiseLevels, hla] using h
            obtain ⟨b', h1, h2, h3, h4⟩ := b2 v vs this
            refine ⟨.sum a b', by simp [Kernel.zeroWhite, ha, hz, hb, h1], by simp [noiseLevels, hla, h2],
              fun x y => ?_, fun x => ?_⟩
            · simp [Kernel.value, h3]
            · simp only [Kernel.diag, h4]
              ring
  | white v => simp [Kernel.isWhite] at hk
  | _ => exact ⟨fun _ => rfl, fun v vs h => by simp [noiseLevels] at h⟩

/-- **C57.** What `fit` does to the noise, for every kernel: a string other than `"gaussian"` is refused; otherwise, with
a noise setting, `noise_` is the level of the first white kernel in the fitted sum, and the kernel used for prediction
is the fitted one without that term: the same covariances between points, a prior variance smaller by exactly
`noise_`, and all other white kernels kept. -/
theorem C57_first_noise_removed (skFit : Kernel d → Kernel d) (kernel : Option (Kernel d)) (noise : Noise) :
    (noise = .otherString → gpFit skFit kernel noise = .error .valueError) ∧
    (noise = .gaussian ∨ (∃ v, v ≠ 0 ∧ noise = .level v) → ∃ attr,
      (∀ v vs, (∀ w, skFit attr ≠ .white w) → noiseLevels (skFit attr) = v :: vs → ∃ kern,
        gpFit skFit kernel noise = .ok (attr, some v, kern) ∧ noiseLevels kern = 0 :: vs ∧
        (∀ x y, kern.value x y = (skFit attr).value x y) ∧ ∀ x, kern.diag x = (skFit attr).diag x - v) ∧
      (noiseLevels (skFit attr) = [] → gpFit skFit kernel noise = .ok (attr, none, skFit attr))) := by
  have hstrip : ∀ k : Kernel d,
      (∀ v vs, (∀ w, k ≠ .white w) → noiseLevels k = v :: vs → ∃ kern,
        removeNoise.strip k = (some v, kern) ∧ noiseLevels kern = 0 :: vs ∧
        (∀ x y, kern.value x y = k.value x y) ∧ ∀ x, kern.diag x = k.diag x - v) ∧
      (noiseLevels k = [] → removeNoise.strip k = (none, k)) := by
    intro k
    have hiw : (∀ w, k ≠ .white w) → k.isWhite = none := by
      intro h
      cases hk : k.isWhite with
      | none => rfl
      | some w => exact absurd (isWhite_spec hk) (h w)
    constructor
    · intro v vs hw hl
      obtain ⟨k', h1, h2, h3, h4⟩ := (zeroWhite_spec k (hiw hw)).2 v vs hl
      exact ⟨k', by simp only [removeNoise.strip, hiw hw, h1], h2, h3, h4⟩
    · intro hl
      have hw : ∀ w, k ≠ .white w := by
        rintro w rfl
        simp [noiseLevels] at hl
      simp only [removeNoise.strip, hiw hw, (zeroWhite_spec k (hiw hw)).1 hl]
  refine ⟨?_, ?_⟩
  · rintro rfl
    rfl
  · rintro (rfl | ⟨v0, hv0, rfl⟩)
    · refine ⟨.sum (kernel.getD (.prod (.const 1) (.rbf fun _ => 1))) (.white 1), fun v vs hw hl => ?_, fun hl => ?_⟩
      · obtain ⟨kern, h1, h2⟩ := (hstrip _).1 v vs hw hl
        refine ⟨kern, ?_, h2⟩
        simp only [gpFit, fitKernel, bind, Except.bind, removeNoise, h1]
      · simp only [gpFit, fitKernel, bind, Except.bind, removeNoise, (hstrip _).2 hl]
    · refine ⟨.sum (kernel.getD (.prod (.const 1) (.rbf fun _ => 1))) (.white v0), fun v vs hw hl => ?_, fun hl => ?_⟩
      · obtain ⟨kern, h1, h2⟩ := (hstrip _).1 v vs hw hl
        refine ⟨kern, ?_, h2⟩
        simp only [gpFit, fitKernel, bind, Except.bind, removeNoise, if_neg hv0, h1]
      · simp only [gpFit, fitKernel, bind, Except.bind, removeNoise, if_neg hv0, (hstrip _).2 hl]

/-- Non-vacuity: of two white kernels the first is removed and reported, the second stays. -/
example : ∃ kern, gpFit (d := 1) id (some (.sum (.rbf fun _ => 1) (.white 2))) (.level 3) =
      .ok (.sum (.sum (.rbf fun _ => 1) (.white 2)) (.white 3), some 2, kern) ∧ noiseLevels kern = [0, 3] :=
  ⟨.sum (.sum (.rbf fun _ => 1) (.white 0)) (.white 3), by
    norm_num [gpFit, fitKernel, removeNoise, removeNoise.strip, Kernel.zeroWhite, Kernel.isWhite, bind, Except.bind], rfl⟩

end Skopt
