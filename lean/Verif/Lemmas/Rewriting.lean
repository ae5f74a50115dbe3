import Verif.Spec.Rewriting
import Verif.Props.GpOrder
import Verif.Lemmas.Units
import Verif.Lemmas.OnePoint
import Verif.Props.Pointwise

/-!
# C138: helper lemmas
-/

namespace Skopt

open Matrix

variable {n d : Nat}

theorem rew_diff (ρ : Rewriting d) (x y : Fin d → ℝ) (i : Fin d) :
    ρ.point x i - ρ.point y i = ρ.scale i * (x (ρ.perm i) - y (ρ.perm i)) := by
  simp only [Rewriting.point]; ring

theorem rew_kdistSq (ρ : Rewriting d) (ls x y : Fin d → ℝ) :
    kdistSq (ρ.lengths ls) (ρ.point x) (ρ.point y) = kdistSq ls x y := by
  unfold kdistSq
  rw [← Equiv.sum_comp ρ.perm fun i => kdiff ls x y i ^ 2]
  refine Finset.sum_congr rfl fun i _ => ?_
  have h : |ρ.scale i| ≠ 0 := abs_ne_zero.mpr (ρ.scale_ne i)
  simp only [kdiff, rew_diff, Rewriting.lengths, div_pow, mul_pow, sq_abs]
  rw [mul_div_mul_left _ _ (pow_ne_zero 2 (ρ.scale_ne i))]

theorem rew_kdist (ρ : Rewriting d) (ls x y : Fin d → ℝ) :
    kdist (ρ.lengths ls) (ρ.point x) (ρ.point y) = kdist ls x y := by
  unfold kdist; rw [rew_kdistSq]

theorem rew_slope (ρ : Rewriting d) (ls x y : Fin d → ℝ) (i : Fin d) :
    kdiff (ρ.lengths ls) (ρ.point x) (ρ.point y) i / ρ.lengths ls i =
      kdiff ls x y (ρ.perm i) / ls (ρ.perm i) / ρ.scale i := by
  have h := ρ.scale_ne i
  have h' : |ρ.scale i| ≠ 0 := abs_ne_zero.mpr h
  have h2 : |ρ.scale i| * |ρ.scale i| = ρ.scale i * ρ.scale i := abs_mul_abs_self _
  simp only [kdiff, rew_diff, Rewriting.lengths]
  rw [div_div, div_div, div_div]
  rw [show |ρ.scale i| * ls (ρ.perm i) * (|ρ.scale i| * ls (ρ.perm i)) =
    ρ.scale i * (ls (ρ.perm i) * (ls (ρ.perm i) * ρ.scale i)) by
      rw [show |ρ.scale i| * ls (ρ.perm i) * (|ρ.scale i| * ls (ρ.perm i)) =
        |ρ.scale i| * |ρ.scale i| * (ls (ρ.perm i) * ls (ρ.perm i)) by ring, h2]; ring]
  rw [mul_div_mul_left _ _ h]

theorem rew_lengths_const (ρ : Rewriting d) (h : ∀ i, |ρ.scale i| = 1) (l : ℝ) :
    ρ.lengths (fun _ => l) = fun _ => l := by
  funext i; simp [Rewriting.lengths, h]

theorem rew_value (ρ : Rewriting d) (k : Kernel d) (h : ρ.Suits k) (x y : Fin d → ℝ) :
    (ρ.kernel k).value (ρ.point x) (ρ.point y) = k.value x y := by
  induction k with
  | rbf ls => simp only [Rewriting.kernel, Kernel.value, rew_kdistSq]
  | matern ls nu => simp only [Rewriting.kernel, Kernel.value, rew_kdist]
  | rq a l =>
    simp only [Rewriting.kernel, Kernel.value]
    rw [← rew_kdistSq ρ (fun _ => l) x y, rew_lengths_const ρ h]
  | expSine l p =>
    simp only [Rewriting.kernel, Kernel.value]
    rw [← rew_kdist ρ (fun _ => 1) x y, rew_lengths_const ρ h]
  | const c => rfl
  | white v => rfl
  | dot s =>
    simp only [Rewriting.kernel, Kernel.value]
    congr 1
    rw [← Equiv.sum_comp ρ.perm fun i => x i * y i]
    refine Finset.sum_congr rfl fun i _ => ?_
    have h2 : ρ.scale i * ρ.scale i = 1 := by rw [← abs_mul_abs_self, (h i).1, one_mul]
    simp only [Rewriting.point, (h i).2, add_zero]
    linear_combination (x (ρ.perm i) * y (ρ.perm i)) * h2
  | hamming ls =>
    simp only [Rewriting.kernel, Kernel.value]
    rw [← Equiv.sum_comp ρ.perm fun i => ls i * (if x i ≠ y i then (1 : ℝ) else 0)]
    congr 2
    refine Finset.sum_congr rfl fun i _ => ?_
    have : ρ.point x i ≠ ρ.point y i ↔ x (ρ.perm i) ≠ y (ρ.perm i) := by
      rw [not_iff_not, ← sub_eq_zero, rew_diff, mul_eq_zero, or_iff_right (ρ.scale_ne i), sub_eq_zero]
    simp only [this]
  | sum a b iha ihb => simp only [Rewriting.kernel, Kernel.value, iha h.1, ihb h.2]
  | prod a b iha ihb => simp only [Rewriting.kernel, Kernel.value, iha h.1, ihb h.2]
  | expo a p iha => simp only [Rewriting.kernel, Kernel.value, iha h]

theorem rew_diag (ρ : Rewriting d) (k : Kernel d) (h : ρ.Suits k) (x : Fin d → ℝ) :
    (ρ.kernel k).diag (ρ.point x) = k.diag x := by
  induction k with
  | dot s => exact rew_value ρ (.dot s) h x x
  | sum a b iha ihb => simp only [Rewriting.kernel, Kernel.diag, iha h.1, ihb h.2]
  | prod a b iha ihb => simp only [Rewriting.kernel, Kernel.diag, iha h.1, ihb h.2]
  | expo a p iha => simp only [Rewriting.kernel, Kernel.diag, iha h]
  | _ => rfl

theorem rew_call (ρ : Rewriting d) (k : Kernel d) (h : ρ.Suits k) (r : Nat) (x y : Fin d → ℝ) :
    (ρ.kernel k).call r (ρ.point x) (ρ.point y) = k.call r x y := by
  induction k with
  | const c => rfl
  | white v => rfl
  | sum a b iha ihb => simp only [Rewriting.kernel, Kernel.call, iha h.1, ihb h.2]
  | prod a b iha ihb => simp only [Rewriting.kernel, Kernel.call, iha h.1, ihb h.2]
  | expo a p iha => simp only [Rewriting.kernel, Kernel.call, iha h]
  | dot s =>
    have := rew_value ρ (.dot s) h x y
    simp only [Rewriting.kernel] at this
    simp only [Rewriting.kernel, Kernel.call, this]
  | rbf ls =>
    have := rew_value ρ (.rbf ls) h x y
    simp only [Rewriting.kernel] at this
    simp only [Rewriting.kernel, Kernel.call, this]
  | matern ls nu =>
    have := rew_value ρ (.matern ls nu) h x y
    simp only [Rewriting.kernel] at this
    simp only [Rewriting.kernel, Kernel.call, this]
  | rq a l =>
    have := rew_value ρ (.rq a l) h x y
    simp only [Rewriting.kernel] at this
    simp only [Rewriting.kernel, Kernel.call, this]
  | expSine l p =>
    have := rew_value ρ (.expSine l p) h x y
    simp only [Rewriting.kernel] at this
    simp only [Rewriting.kernel, Kernel.call, this]
  | hamming ls =>
    have := rew_value ρ (.hamming ls) h x y
    simp only [Rewriting.kernel] at this
    simp only [Rewriting.kernel, Kernel.call, this]

theorem rew_rbfGrad (ρ : Rewriting d) (ls x y : Fin d → ℝ) :
    rbfGrad (ρ.lengths ls) (ρ.point x) (ρ.point y) = ρ.slope (rbfGrad ls x y) := by
  funext i
  simp only [rbfGrad, Rewriting.slope, rew_kdistSq, mul_div_assoc, rew_slope]

theorem rew_three (ρ : Rewriting d) (ls x y : Fin d → ℝ) :
    maternThreeGrad (ρ.lengths ls) (ρ.point x) (ρ.point y) = ρ.slope (maternThreeGrad ls x y) := by
  funext i
  simp only [maternThreeGrad, Rewriting.slope, rew_kdist, rew_slope]
  ring

theorem rew_five (ρ : Rewriting d) (ls x y : Fin d → ℝ) :
    maternFiveGrad (ρ.lengths ls) (ρ.point x) (ρ.point y) = ρ.slope (maternFiveGrad ls x y) := by
  funext i
  simp only [maternFiveGrad, Rewriting.slope, rew_kdist, rew_kdistSq, rew_slope]
  ring

theorem rew_half (ρ : Rewriting d) (hρ : ∀ i, 0 < ρ.scale i) (ls x y : Fin d → ℝ) :
    maternHalfGrad (ρ.lengths ls) (ρ.point x) (ρ.point y) = ρ.slope (maternHalfGrad ls x y) := by
  funext i
  simp only [maternHalfGrad, Rewriting.slope, rew_kdist]
  split
  · rw [mul_div_assoc, rew_slope]; ring
  · simp only [Rewriting.lengths, abs_of_pos (hρ i)]
    rw [div_div, mul_comm]

theorem rew_rq (ρ : Rewriting d) (hρ : ∀ i, |ρ.scale i| = 1) (a l : ℝ) (x y : Fin d → ℝ) :
    rqGrad a l (ρ.point x) (ρ.point y) = ρ.slope (rqGrad a l x y) := by
  funext i
  have e := rew_slope ρ (fun _ => l) x y i
  have e' := rew_kdistSq ρ (fun _ => l) x y
  rw [rew_lengths_const ρ hρ] at e e'
  simp only [rqGrad, Rewriting.slope, e, e', mul_div_assoc]

theorem rew_expSine (ρ : Rewriting d) (hρ : ∀ i, |ρ.scale i| = 1) (l p : ℝ) (x y : Fin d → ℝ) :
    expSineGrad l p (ρ.point x) (ρ.point y) = ρ.slope (expSineGrad l p x y) := by
  funext i
  have e' := rew_kdist ρ (fun _ => 1) x y
  rw [rew_lengths_const ρ hρ] at e'
  have h2 : ρ.scale i = 1 / ρ.scale i := by
    rw [eq_div_iff (ρ.scale_ne i), ← abs_mul_abs_self, hρ i, one_mul]
  simp only [expSineGrad, Rewriting.slope, e', rew_diff]
  generalize (if kdist (fun _ => (1 : ℝ)) x y ≠ 0 then Real.pi / (p * kdist (fun _ => 1) x y) else 0) *
    Real.exp (-2 * (Real.sin (kdist (fun _ => 1) x y * (Real.pi / p)) / l) ^ 2) *
    (-2 * Real.sin (2 * (kdist (fun _ => 1) x y * (Real.pi / p))) / l ^ 2) = c
  rw [div_eq_mul_one_div, ← h2]
  ring

theorem rew_gradRow (ρ : Rewriting d) (k : Kernel d) (h : ρ.Suits k) (hd : ρ.Directed k) (r : Nat) (x y : Fin d → ℝ) :
    (ρ.kernel k).gradRow r (ρ.point x) (ρ.point y) = (k.gradRow r x y).map ρ.slope := by
  induction k generalizing r with
  | rbf ls =>
    simp only [Rewriting.kernel, Kernel.gradRow, rew_rbfGrad]
    split <;> rfl
  | matern ls nu =>
    cases nu with
    | half =>
      simp only [Rewriting.kernel, Kernel.gradRow, rew_half ρ hd]
      split
      · rfl
      · split
        · split <;> rfl
        · rfl
    | threeHalves =>
      simp only [Rewriting.kernel, Kernel.gradRow, rew_three]
      split <;> rfl
    | fiveHalves =>
      simp only [Rewriting.kernel, Kernel.gradRow, rew_five]
      split <;> rfl
    | other f => rfl
  | rq a l =>
    simp only [Rewriting.kernel, Kernel.gradRow, rew_rq ρ h]
    split <;> rfl
  | expSine l p =>
    simp only [Rewriting.kernel, Kernel.gradRow, rew_expSine ρ h]
    split <;> rfl
  | const c => simp only [Rewriting.kernel, Kernel.gradRow, Except.map_ok']; congr 1; funext i; simp [Rewriting.slope]
  | white v => simp only [Rewriting.kernel, Kernel.gradRow, Except.map_ok']; congr 1; funext i; simp [Rewriting.slope]
  | dot s =>
    simp only [Rewriting.kernel, Kernel.gradRow, Except.map_ok']
    congr 1
    funext i
    have h2 : ρ.scale i * ρ.scale i = 1 := by rw [← abs_mul_abs_self, (h i).1, one_mul]
    simp only [Rewriting.slope, Rewriting.point, (h i).2, add_zero]
    rw [eq_div_iff (ρ.scale_ne i)]
    linear_combination y (ρ.perm i) * h2
  | hamming ls => rfl
  | sum a b iha ihb =>
    simp only [Rewriting.kernel, Kernel.gradRow, iha h.1 hd.1, ihb h.2 hd.2]
    cases a.gradRow r x y with
    | error e => rfl
    | ok u =>
      cases b.gradRow r x y with
      | error e => rfl
      | ok v =>
        simp only [Except.map_ok', ok_bind]
        congr 1
        funext i
        simp only [Rewriting.slope]
        ring
  | prod a b iha ihb =>
    simp only [Rewriting.kernel, Kernel.gradRow, iha h.1 hd.1, ihb h.2 hd.2, rew_call ρ a h.1, rew_call ρ b h.2]
    cases a.call (r + 1) x y with
    | error e => rfl
    | ok u =>
      cases b.call (r + 1) x y with
      | error e => rfl
      | ok v =>
        cases b.gradRow (r + 1) x y with
        | error e => rfl
        | ok u' =>
          cases a.gradRow (r + 1) x y with
          | error e => rfl
          | ok v' =>
            simp only [Except.map_ok', ok_bind]
            congr 1
            funext i
            simp only [Rewriting.slope]
            ring
  | expo a p iha =>
    simp only [Rewriting.kernel, Kernel.gradRow, iha h hd, rew_call ρ a h]
    cases a.call (r + 1) x y with
    | error e => rfl
    | ok u =>
      cases a.gradRow r x y with
      | error e => rfl
      | ok v =>
        simp only [Except.map_ok', ok_bind]
        congr 1
        funext i
        simp only [Rewriting.slope]
        ring

theorem rew_gram (ρ : Rewriting d) (k : Kernel d) (h : ρ.Suits k) (X : Fin n → Fin d → ℝ) :
    (ρ.kernel k).gram (fun i => ρ.point (X i)) = k.gram X := by
  funext i j
  unfold Kernel.gram
  rw [rew_diag ρ k h, rew_value ρ k h]

theorem rew_gradient {g g' : Gp n d} (ρ : Rewriting d) (hk : g'.kernel = ρ.kernel g.kernel) (hs : ρ.Suits g.kernel)
    (hd : ρ.Directed g.kernel) (hX : g'.X = fun i => ρ.point (g.X i)) (x : Fin d → ℝ) :
    g'.gradient (ρ.point x) = (g.gradient x).map fun G i => ρ.slope (G i) := by
  unfold Gp.gradient Kernel.gradientX
  rw [hk, hX]
  have e : List.ofFn (fun i => ρ.point (g.X i)) = (List.ofFn g.X).map ρ.point := by
    rw [List.map_ofFn]; rfl
  rw [e]
  have key : ∀ l : List (Fin d → ℝ), mapE (fun y => (ρ.kernel g.kernel).gradRow 0 (ρ.point x) y) (l.map ρ.point) =
      (mapE (fun y => g.kernel.gradRow 0 x y) l).map (List.map ρ.slope) := by
    intro l
    induction l with
    | nil => rfl
    | cons a l ih =>
      simp only [List.map_cons, mapE, ih, rew_gradRow ρ _ hs hd]
      cases g.kernel.gradRow 0 x a with
      | error e => rfl
      | ok u =>
        simp only [Except.map_ok']
        cases mapE (fun y => g.kernel.gradRow 0 x y) l with
        | error e => rfl
        | ok v => rfl
  rw [key]
  cases mapE (fun y => g.kernel.gradRow 0 x y) (List.ofFn g.X) with
  | error e => rfl
  | ok rows =>
    simp only [Except.map_ok', ok_bind]
    congr 1
    funext i j
    simp only [List.getD_eq_getElem?_getD, List.getElem?_map]
    cases rows[i.val]? with
    | none => simp [Rewriting.slope]
    | some v => rfl

/-- What the encodings of a value in the two descriptions have to do with each other. -/
structure Described.Facts (t : Bool) (d d' : Dim ℝ) (f : Val ℝ → Val ℝ) : Prop where
  valid : ValidDim exact d ∧ ValidDim exact d'
  noStr : YieldsNoStr d ∧ YieldsNoStr d'
  legal : ∀ v, Legal exact d v → Legal exact d' (f v)
  code : ∀ v, Legal exact d v → ∃ u : ℝ, d.transform exact [v] = .ok [[.num u]] ∧
    d'.transform exact [f v] = .ok [[.num (if t then 1 - u else u)]]

theorem Described.facts {t : Bool} {d d' : Dim ℝ} {f : Val ℝ → Val ℝ} (h : Described t d d' f) :
    Described.Facts t d d' f := by
  cases h with
  | same hd hw =>
    have hv := hw.valid d (by simp)
    have hs := (hw.bounds d (by simp)).yieldsNoStr
    refine ⟨⟨hv, hv⟩, ⟨hs, hs⟩, fun v h => h, fun v hvl => ?_⟩
    have hin : InSpace exact [d] [v] := .cons hvl .nil
    obtain ⟨Xt, h1, h2, h3⟩ := hw.transform_ok (X := [[v]]) (by simp) (by simpa using hin)
    obtain ⟨r, rfl⟩ := List.length_eq_one_iff.1 h2
    have hb := h3 r (by simp)
    obtain ⟨parts, hp, rfl⟩ := (transform_one_iff (by simp) hw.valid (by simpa using hs)
      (List.Forall₂.cons hvl.within .nil) r).1 h1
    unfold Parts at hp
    simp only [List.zip_cons_cons, List.zip_nil_left] at hp
    cases hp with
    | @cons _ a _ _ hp1 hp2 =>
      cases hp2
      have hsz : Space.transformedBounds exact [d] = [(0, 1)] := by
        cases d with
        | real r => simp only [Dim.tkind] at hd; simp [Space.transformedBounds, Dim.transformedBounds, hd, exact]
        | int r => simp only [Dim.tkind] at hd; simp [Space.transformedBounds, Dim.transformedBounds, hd, exact]
        | cat c =>
          simp only [Dim.tkind] at hd
          simp [Space.transformedBounds, Dim.transformedBounds, Dim.transformedSize, hd, exact]
      rw [hsz] at hb
      simp only [List.flatten_cons, List.flatten_nil, List.append_nil] at hb
      cases hb with
      | cons hb1 hb2 =>
        cases hb2
        obtain ⟨u, rfl, -⟩ := hb1
        exact ⟨u, hp1, by simpa using hp1⟩
  | @real lo hi b nm hlh =>
    refine ⟨⟨⟨hlh, .inr rfl, fun x h1 h2 => ⟨h1, h2⟩⟩, ⟨neg_lt_neg hlh, .inr rfl, fun x h1 h2 => ⟨h1, h2⟩⟩⟩,
      ⟨trivial, trivial⟩, ?_, ?_⟩
    · rintro v ⟨x, rfl, h1, h2⟩
      exact ⟨-x, rfl, neg_le_neg h2, neg_le_neg h1⟩
    · rintro v ⟨x, rfl, h1, h2⟩
      refine ⟨_, real_transform_uniform b nm hlh (xs := [x]) (by simpa using ⟨h1, h2⟩), ?_⟩
      have := real_transform_uniform b nm (neg_lt_neg hlh) (xs := [-x]) (by simpa using ⟨h2, h1⟩)
      rw [show onNum (fun x : ℝ => -x) (.num x) = .num (-x) from rfl]
      rw [List.map_singleton, List.map_singleton] at this
      rw [this]
      have h0 : hi - lo ≠ 0 := by linarith [sub_pos.2 hlh]
      have h0' : -lo - -hi ≠ 0 := by intro h; apply h0; linarith
      simp only [if_true]
      congr 4
      rw [eq_sub_iff_add_eq, show -lo - -hi = hi - lo by ring, ← add_div, div_eq_one_iff_eq h0]
      ring
  | @log lo hi b nm hlo hlh hb =>
    have hhi := hlo.trans hlh
    have hinv : hi⁻¹ < lo⁻¹ := (inv_lt_inv₀ hhi hlo).2 hlh
    refine ⟨⟨⟨hlh, .inr rfl, fun x h1 h2 => ⟨h1, h2⟩⟩, ⟨hinv, .inr rfl, fun x h1 h2 => ⟨h1, h2⟩⟩⟩,
      ⟨trivial, trivial⟩, ?_, ?_⟩
    · rintro v ⟨x, rfl, h1, h2⟩
      have hx := hlo.trans_le h1
      exact ⟨x⁻¹, rfl, (inv_le_inv₀ hhi hx).2 h2, (inv_le_inv₀ hx hlo).2 h1⟩
    · rintro v ⟨x, rfl, h1, h2⟩
      have hx := hlo.trans_le h1
      refine ⟨_, real_transform_log hlo hlh hb nm (xs := [x]) (by simpa using ⟨h1, h2⟩), ?_⟩
      have := real_transform_log (inv_pos.2 hhi) hinv hb nm (xs := [x⁻¹])
        (by simpa using ⟨(inv_le_inv₀ hhi hx).2 h2, (inv_le_inv₀ hx hlo).2 h1⟩)
      rw [show onNum (fun x : ℝ => x⁻¹) (.num x) = .num x⁻¹ from rfl]
      rw [List.map_singleton, List.map_singleton] at this
      rw [this]
      have h0 : Real.log hi - Real.log lo ≠ 0 := (sub_pos.2 (Real.log_lt_log hlo hlh)).ne'
      simp only [if_true]
      congr 4
      unfold logUnit
      rw [Real.log_inv, Real.log_inv, Real.log_inv, eq_sub_iff_add_eq,
        show -Real.log lo - -Real.log hi = Real.log hi - Real.log lo by ring, ← add_div, div_eq_one_iff_eq h0]
      ring
  | @int l h b nm hlh =>
    have hR : (l : ℝ) < h := by exact_mod_cast hlh
    have r : ∀ k : ℤ, exact.round ((k : ℤ) : ℝ) = k := fun k => roundHalfEven_intCast k
    refine ⟨⟨⟨l, h, hlh, rfl, rfl, r l, r h, .inr rfl, fun k _ _ => rfl⟩,
      ⟨-h, -l, neg_lt_neg hlh, rfl, rfl, r (-h), r (-l), .inr rfl, fun k _ _ => rfl⟩⟩, ⟨trivial, trivial⟩, ?_, ?_⟩
    · rintro v ⟨k, rfl, h1, h2⟩
      simp only [exact] at h1 h2
      refine ⟨-k, ?_, ?_, ?_⟩
      · simp [onNum, exact]
      · simp only [exact]
        push_cast
        linarith
      · simp only [exact]
        push_cast
        linarith
    · rintro v ⟨k, rfl, h1, h2⟩
      simp only [exact] at h1 h2
      refine ⟨_, int_transform_uniform b nm hlh (xs := [(k : ℝ)])
        (by simp only [List.mem_singleton, forall_eq]; exact ⟨h1, h2⟩), ?_⟩
      have := int_transform_uniform b nm (neg_lt_neg hlh) (xs := [((-k : ℤ) : ℝ)])
        (by simp only [List.mem_singleton, forall_eq]; push_cast; exact ⟨by linarith, by linarith⟩)
      rw [show onNum (fun x : ℝ => -x) (.num (exact.ofInt k)) = .num (((-k : ℤ) : ℝ)) by simp [onNum, exact]]
      rw [List.map_singleton, List.map_singleton] at this
      rw [this]
      have h0 : (h : ℝ) - l ≠ 0 := by linarith [sub_pos.2 hR]
      simp only [if_true]
      congr 4
      rw [roundHalfEven_intCast, roundHalfEven_intCast]
      push_cast
      rw [eq_sub_iff_add_eq, show -(l : ℝ) - -h = h - l by ring, ← add_div, div_eq_one_iff_eq h0]
      ring

theorem ofFn_forall₂ {α β : Type} {n : Nat} {R : α → β → Prop} {a : Fin n → α} {b : Fin n → β} (h : ∀ i, R (a i) (b i)) :
    List.Forall₂ R (List.ofFn a) (List.ofFn b) := by
  rw [List.forall₂_iff_get]
  refine ⟨by simp, fun i h1 h2 => ?_⟩
  simp only [List.get_eq_getElem, List.getElem_ofFn]
  exact h _

theorem transform_ofFn {n : Nat} {ι : Type} (hn : 0 < n) {D : Fin n → Dim ℝ} (hv : ∀ i, ValidDim exact (D i))
    (hs : ∀ i, YieldsNoStr (D i)) (X : List ι) (hX : X ≠ []) (P : ι → Fin n → Val ℝ) (U : ι → Fin n → ℝ)
    (hl : ∀ p ∈ X, ∀ i, Legal exact (D i) (P p i))
    (hu : ∀ p ∈ X, ∀ i, (D i).transform exact [P p i] = .ok [[.num (U p i)]]) :
    Space.transform exact (List.ofFn D) (X.map fun p => List.ofFn (P p)) =
      .ok (X.map fun p => List.ofFn fun i => .num (U p i)) := by
  have hne : List.ofFn D ≠ [] := by
    intro h0; simpa [hn.ne'] using congrArg List.length h0
  have hv' : ∀ d ∈ List.ofFn D, ValidDim exact d := by
    intro d hd; obtain ⟨i, rfl⟩ := (List.mem_ofFn' _ _).1 hd; exact hv i
  have hs' : ∀ d ∈ List.ofFn D, YieldsNoStr d := by
    intro d hd; obtain ⟨i, rfl⟩ := (List.mem_ofFn' _ _).1 hd; exact hs i
  refine (C67_transform_pointwise_partial exact _ hne hv' (.inl hs') _ (by simpa using hX) ?_ _).2 ?_
  · intro q hq
    obtain ⟨p, hp, rfl⟩ := List.mem_map.1 hq
    exact ofFn_forall₂ (hl p hp)
  · rw [List.forall₂_map_left_iff, List.forall₂_map_right_iff, List.forall₂_same]
    intro p hp
    refine (transform_one_iff hne hv' hs' (ofFn_forall₂ fun i => (hl p hp i).within) _).2
      ⟨List.ofFn fun i => [.num (U p i)], ?_, ?_⟩
    · unfold Parts
      rw [show (List.ofFn D).zip (List.ofFn (P p)) = List.ofFn fun i => (D i, P p i) by
        refine List.ext_getElem (by simp) fun i h1 h2 => by simp]
      exact ofFn_forall₂ (hu p hp)
    · have : ∀ l : List (Val ℝ), l = (l.map fun v => [v]).flatten := by
        intro l
        induction l with
        | nil => rfl
        | cons a l ih => rw [List.map_cons, List.flatten_cons, ← ih]; rfl
      rw [this (List.ofFn fun i => Val.num (U p i)), List.map_ofFn]
      rfl

theorem rew_isWhite (ρ : Rewriting d) (k : Kernel d) : (ρ.kernel k).isWhite = k.isWhite := by
  cases k <;> rfl

theorem rew_zeroWhite (ρ : Rewriting d) (k : Kernel d) :
    (ρ.kernel k).zeroWhite = k.zeroWhite.map fun p => (p.1, ρ.kernel p.2) := by
  induction k with
  | sum a b iha ihb =>
    simp only [Rewriting.kernel, Kernel.zeroWhite, rew_isWhite]
    cases a.isWhite with
    | some v => rfl
    | none =>
      simp only [iha]
      cases a.zeroWhite with
      | some p => rfl
      | none =>
        simp only [Option.map_none]
        cases b.isWhite with
        | some v => rfl
        | none =>
          simp only [ihb]
          cases b.zeroWhite <;> rfl
  | _ => rfl

theorem rew_removeNoise (ρ : Rewriting d) (noise : Noise) (k : Kernel d) :
    removeNoise noise (ρ.kernel k) = ((removeNoise noise k).1, ρ.kernel (removeNoise noise k).2) := by
  have key : removeNoise.strip (ρ.kernel k) = ((removeNoise.strip k).1, ρ.kernel (removeNoise.strip k).2) := by
    unfold removeNoise.strip
    rw [rew_isWhite, rew_zeroWhite]
    cases k.isWhite with
    | some v => rfl
    | none =>
      simp only
      cases k.zeroWhite <;> rfl
  cases noise with
  | none => rfl
  | gaussian => exact key
  | otherString => exact key
  | level v =>
    simp only [removeNoise]
    split
    · rfl
    · exact key

theorem turning_suits (σ : Equiv.Perm (Fin d)) (turned : Fin d → Bool) (k : Kernel d) (h : EvenVariance k) :
    (Rewriting.turning σ turned).Suits k := by
  have h1 : ∀ i, |(Rewriting.turning σ turned).scale i| = 1 := by
    intro i
    simp only [Rewriting.turning]
    split <;> simp
  induction k with
  | rq a l => exact h1
  | expSine l p => exact h1
  | dot s => exact h.elim
  | sum a b iha ihb => exact ⟨iha h.1, ihb h.2⟩
  | prod a b iha ihb => exact ⟨iha h.1, ihb h.2⟩
  | expo a p iha => exact iha h
  | _ => trivial

end Skopt
