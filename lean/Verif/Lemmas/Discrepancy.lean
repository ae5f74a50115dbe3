import Verif.Props.HaltonBoxes
import Verif.Spec.Discrepancy
import Mathlib.Data.List.Sections

/-!
# Boxes of any shape, from boxes of a partition
-/

namespace Skopt

open Classical in
/-- 1 if the statement holds, 0 if not. -/
noncomputable def ind (p : Prop) : ℝ := if p then 1 else 0

theorem ind_and (p q : Prop) : ind (p ∧ q) = ind p * ind q := by
  unfold ind
  by_cases hp : p <;> by_cases hq : q <;> simp [hp, hq]

theorem ind_congr {p q : Prop} (h : p ↔ q) : ind p = ind q := by rw [propext h]

theorem ind_false {p : Prop} (h : ¬ p) : ind p = 0 := if_neg h

theorem ind_interval_add {a b c : ℝ} (h1 : a ≤ b) (h2 : b ≤ c) (x : ℝ) :
    ind (a ≤ x ∧ x < b) + ind (b ≤ x ∧ x < c) = ind (a ≤ x ∧ x < c) := by
  unfold ind
  by_cases hb : x < b
  · by_cases ha : a ≤ x
    · rw [if_pos ⟨ha, hb⟩, if_neg (fun h => absurd hb (not_lt.2 h.1)), if_pos ⟨ha, hb.trans_le h2⟩, add_zero]
    · rw [if_neg (fun h => ha h.1), if_neg (fun h => absurd hb (not_lt.2 h.1)), if_neg (fun h => ha h.1), add_zero]
  · rw [not_lt] at hb
    by_cases hc : x < c
    · rw [if_neg (fun h => absurd h.2 (not_lt.2 hb)), if_pos ⟨hb, hc⟩, if_pos ⟨h1.trans hb, hc⟩, zero_add]
    · rw [if_neg (fun h => absurd h.2 (not_lt.2 hb)), if_neg (fun h => hc h.2), if_neg (fun h => hc h.2), add_zero]

/-- The strata `A`, …, `B - 1` of `n` make up `[A/n, B/n)`. -/
theorem strata_sum (n : Nat) (hn : 0 < n) (A : Nat) : ∀ (L : Nat) (x : ℝ),
    (((List.range L).map fun i => ((n, A + i) : Nat × Nat)).map fun c => ind (InStratum c.1 c.2 x)).sum =
      ind ((A : ℝ) / n ≤ x ∧ x < ((A + L : Nat) : ℝ) / n)
  | 0, x => by
      simp only [List.range_zero, List.map_nil, List.sum_nil, Nat.add_zero]
      exact (ind_false fun h => absurd h.2 (not_lt.2 h.1)).symm
  | L + 1, x => by
      have hnR : (0 : ℝ) < n := by exact_mod_cast hn
      rw [List.range_succ, List.map_append, List.map_append, List.sum_append, strata_sum n hn A L x]
      simp only [List.map_cons, List.map_nil, List.sum_cons, List.sum_nil, add_zero, InStratum]
      have e : (((A + L : Nat) : ℝ) + 1) / n = ((A + (L + 1) : Nat) : ℝ) / n := by push_cast; ring
      rw [e]
      refine ind_interval_add ?_ ?_ x
      · gcongr; omega
      · gcongr; omega

theorem strata_len (n A : Nat) : ∀ L : Nat,
    (((List.range L).map fun i => ((n, A + i) : Nat × Nat)).map fun c => 1 / (c.1 : ℝ)).sum = L / n
  | 0 => by simp
  | L + 1 => by
      rw [List.range_succ, List.map_append, List.map_append, List.sum_append, strata_len n A L]
      simp only [List.map_cons, List.map_nil, List.sum_cons, List.sum_nil, add_zero]
      push_cast
      ring

/-- An interval with ends among the multiples of `1 / b ^ m` consists of few strata of numbers `1`, `b`, …, `b ^ m`. -/
theorem interval_strata {b : Nat} (hb : 1 < b) : ∀ (m A B : Nat), A ≤ B → B ≤ b ^ m →
    ∃ D : List (Nat × Nat), (∀ c ∈ D, (∃ k ≤ m, c.1 = b ^ k) ∧ c.2 < c.1) ∧ D.length ≤ 2 * (b - 1) * m + 1 ∧
      (∀ x : ℝ, (D.map fun c => ind (InStratum c.1 c.2 x)).sum = ind ((A : ℝ) / (b ^ m : Nat) ≤ x ∧ x < (B : ℝ) / (b ^ m : Nat))) ∧
      (D.map fun c => 1 / (c.1 : ℝ)).sum = ((B : ℝ) - A) / (b ^ m : Nat)
  | 0, A, B, hAB, hB => by
      rw [pow_zero] at hB
      rcases Nat.eq_or_lt_of_le hAB with rfl | h
      · refine ⟨[], by simp, by simp, fun x => ?_, by simp⟩
        exact (ind_false fun h => absurd h.2 (not_lt.2 h.1)).symm
      · have hA : A = 0 := by omega
        have hB' : B = 1 := by omega
        subst hA hB'
        refine ⟨[(1, 0)], ?_, by simp, fun x => ?_, by simp⟩
        · intro c hc
          rw [List.mem_singleton] at hc
          subst hc
          exact ⟨⟨0, le_rfl, rfl⟩, Nat.one_pos⟩
        · simp [InStratum]
  | m + 1, A, B, hAB, hB => by
      have hpos : 0 < b ^ (m + 1) := by positivity
      have hposR : (0 : ℝ) < (b ^ (m + 1) : Nat) := by exact_mod_cast hpos
      have hb0 : (0 : ℝ) < b := by exact_mod_cast (by omega : 0 < b)
      have mem : ∀ (s L : Nat), s + L ≤ b ^ (m + 1) →
          ∀ c ∈ (List.range L).map fun i => ((b ^ (m + 1), s + i) : Nat × Nat), (∃ k ≤ m + 1, c.1 = b ^ k) ∧ c.2 < c.1 := by
        intro s L h c hc
        obtain ⟨i, hi, rfl⟩ := List.mem_map.1 hc
        rw [List.mem_range] at hi
        exact ⟨⟨m + 1, le_rfl, rfl⟩, by simp only; omega⟩
      set A' := (A + b - 1) / b with hA'
      set B' := B / b with hB'
      have a1 : A ≤ b * A' ∧ b * A' ≤ A + (b - 1) := by
        have h1 := Nat.div_add_mod (A + b - 1) b
        have h2 := Nat.mod_lt (A + b - 1) (by omega : 0 < b)
        rw [← hA'] at h1
        omega
      have b1 : b * B' ≤ B ∧ B ≤ b * B' + (b - 1) := by
        have h1 := Nat.div_add_mod B b
        have h2 := Nat.mod_lt B (by omega : 0 < b)
        rw [← hB'] at h1
        omega
      have hlenmul : 2 * (b - 1) * (m + 1) = 2 * (b - 1) * m + 2 * (b - 1) := by ring
      by_cases hc : A' ≤ B'
      · have hB'le : B' ≤ b ^ m := by
          rw [hB']
          exact Nat.div_le_of_le_mul (by rw [pow_succ, Nat.mul_comm] at hB; exact hB)
        obtain ⟨D, d1, d2, d3, d4⟩ := interval_strata hb m A' B' hc hB'le
        have hmul : b * A' ≤ b * B' := Nat.mul_le_mul_left _ hc
        refine ⟨((List.range (b * A' - A)).map fun i => (b ^ (m + 1), A + i)) ++ D ++
          ((List.range (B - b * B')).map fun i => (b ^ (m + 1), b * B' + i)), ?_, ?_, fun x => ?_, ?_⟩
        · intro c hcm
          rcases List.mem_append.1 hcm with hcm | hcm
          · rcases List.mem_append.1 hcm with hcm | hcm
            · exact mem A _ (by omega) c hcm
            · obtain ⟨⟨k, hk, e⟩, h⟩ := d1 c hcm
              exact ⟨⟨k, by omega, e⟩, h⟩
          · exact mem (b * B') _ (by omega) c hcm
        · simp only [List.length_append, List.length_map, List.length_range]
          omega
        · rw [List.map_append, List.map_append, List.sum_append, List.sum_append, strata_sum _ hpos, strata_sum _ hpos, d3,
            Nat.add_sub_cancel' a1.1, Nat.add_sub_cancel' b1.1]
          have sc : ∀ k : Nat, (k : ℝ) / (b ^ m : Nat) = ((b * k : Nat) : ℝ) / (b ^ (m + 1) : Nat) := by
            intro k
            push_cast
            rw [pow_succ, mul_comm ((b : ℝ) ^ m), mul_div_mul_left _ _ hb0.ne']
          rw [sc, sc, ind_interval_add, ind_interval_add]
          · gcongr
            exact a1.1.trans hmul
          · gcongr
            exact b1.1
          · gcongr
            exact a1.1
          · gcongr
        · rw [List.map_append, List.map_append, List.sum_append, List.sum_append, strata_len, strata_len, d4,
            Nat.cast_sub a1.1, Nat.cast_sub b1.1]
          push_cast
          rw [pow_succ]
          field_simp
          ring
      · refine ⟨(List.range (B - A)).map fun i => (b ^ (m + 1), A + i), mem A _ (by omega), ?_, fun x => ?_, ?_⟩
        · simp only [List.length_map, List.length_range]
          have : B' + 1 ≤ A' := by omega
          have h3 : b * (B' + 1) ≤ b * A' := Nat.mul_le_mul_left _ this
          rw [Nat.mul_add] at h3
          have : B - A ≤ b - 1 := by omega
          have : b - 1 ≤ 2 * (b - 1) * (m + 1) := by rw [hlenmul]; omega
          omega
        · rw [strata_sum _ hpos, Nat.add_sub_cancel' hAB]
        · rw [strata_len, Nat.cast_sub hAB]


/-! ## Boxes -/

theorem length_filter_ind {α : Type} (p : α → Prop) (q : α → Bool) (hq : ∀ a, q a = true ↔ p a) : ∀ l : List α,
    ((l.filter q).length : ℝ) = (l.map fun a => ind (p a)).sum
  | [] => by simp
  | a :: l => by
      have ih := length_filter_ind p q hq l
      rw [List.map_cons, List.sum_cons, ← ih]
      by_cases h : p a
      · rw [List.filter_cons_of_pos ((hq a).2 h), List.length_cons]
        unfold ind
        rw [if_pos h]
        push_cast
        ring
      · rw [List.filter_cons_of_neg fun h' => h ((hq a).1 h'), ind_false h, zero_add]

theorem sum_map_comm {α β : Type} (f : α → β → ℝ) : ∀ (l : List α) (k : List β),
    (l.map fun a => (k.map fun b => f a b).sum).sum = (k.map fun b => (l.map fun a => f a b).sum).sum
  | [], k => by simp
  | a :: l, k => by
      simp only [List.map_cons, List.sum_cons]
      rw [sum_map_comm f l k, ← List.sum_map_add]

/-- The strata `D` make up the interval `I`. -/
def MadeUpOf (I : ℝ × ℝ) (D : List (Nat × Nat)) : Prop :=
  (∀ x : ℝ, (D.map fun c => ind (InStratum c.1 c.2 x)).sum = ind (I.1 ≤ x ∧ x < I.2)) ∧
  (D.map fun c => 1 / (c.1 : ℝ)).sum = I.2 - I.1

theorem sum_flatMap_map {α β : Type} (f : β → ℝ) (g : α → List β) : ∀ l : List α,
    ((l.flatMap g).map f).sum = (l.map fun a => ((g a).map f).sum).sum
  | [] => by simp
  | a :: l => by
      rw [List.flatMap_cons, List.map_append, List.sum_append, sum_flatMap_map f g l, List.map_cons, List.sum_cons]

theorem length_sections' : ∀ Ds : List (List (Nat × Nat)), (List.sections Ds).length = (Ds.map List.length).prod
  | [] => rfl
  | D :: Ds => by
      rw [List.sections, List.length_flatMap, List.map_cons, List.prod_cons, ← length_sections' Ds]
      simp only [List.length_map, List.map_const', List.sum_replicate, smul_eq_mul]
      ring

theorem sum_sections (f : Nat × Nat → ℝ) (g : List (Nat × Nat) → ℝ) (h : List (Nat × Nat) → ℝ)
    (hg : ∀ c cs, g (c :: cs) = f c * h cs) (D : List (Nat × Nat)) (Ds : List (List (Nat × Nat))) :
    ((List.sections (D :: Ds)).map g).sum = (D.map f).sum * ((List.sections Ds).map h).sum := by
  rw [List.sections, sum_flatMap_map]
  have e : (List.sections Ds).map (fun cs => ((D.map fun a => a :: cs).map g).sum) =
      (List.sections Ds).map fun cs => (D.map f).sum * h cs := by
    refine List.map_congr_left fun cs _ => ?_
    rw [List.map_map, ← List.sum_map_mul_right]
    exact congrArg List.sum (List.map_congr_left fun c _ => hg c cs)
  rw [e, List.sum_map_mul_left]

theorem sections_region {box : List (ℝ × ℝ)} {Ds : List (List (Nat × Nat))} (hD : List.Forall₂ MadeUpOf box Ds) :
    ∀ p : List ℝ, p.length = box.length →
      ((List.sections Ds).map fun cells => ind (InCell cells p)).sum = ind (InRegion box p) := by
  induction hD with
  | nil =>
    intro p hp
    have : p = [] := List.length_eq_zero_iff.1 (by simpa using hp)
    subst this
    simp [List.sections, InCell, InRegion]
  | @cons I D box Ds hI hDs ih =>
    intro p hp
    cases p with
    | nil => simp at hp
    | cons x p =>
      rw [sum_sections (fun c => ind (InStratum c.1 c.2 x)) _ (fun cells => ind (InCell cells p)), hI.1,
        ih p (by simpa using hp), ← ind_and]
      · exact ind_congr (by unfold InRegion; rw [List.forall₂_cons])
      · intro c cs
        rw [← ind_and]
        exact ind_congr (by unfold InCell; rw [List.forall₂_cons])

theorem sections_volume {box : List (ℝ × ℝ)} {Ds : List (List (Nat × Nat))} (hD : List.Forall₂ MadeUpOf box Ds) :
    ((List.sections Ds).map fun cells => 1 / ((cells.map Prod.fst).prod : ℝ)).sum = regionVolume box := by
  induction hD with
  | nil => simp [List.sections, regionVolume]
  | @cons I D box Ds hI hDs ih =>
    rw [sum_sections (fun c => 1 / (c.1 : ℝ)) _ (fun cells => 1 / ((cells.map Prod.fst).prod : ℝ)), hI.2, ih]
    · rfl
    · intro c cs
      rw [List.map_cons, List.prod_cons]
      push_cast
      rw [one_div_mul_one_div]

theorem regionCount_sections {box : List (ℝ × ℝ)} {Ds : List (List (Nat × Nat))} (hD : List.Forall₂ MadeUpOf box Ds)
    (M : List (List ℝ)) (hM : ∀ p ∈ M, p.length = box.length) :
    (regionCount box M : ℝ) = ((List.sections Ds).map fun cells => (boxCount cells M : ℝ)).sum := by
  unfold regionCount boxCount
  rw [length_filter_ind (fun p => InRegion box p) _ (fun p => by simp)]
  have e : (M.map fun p => ind (InRegion box p)) =
      M.map fun p => ((List.sections Ds).map fun cells => ind (InCell cells p)).sum :=
    List.map_congr_left fun p hp => (sections_region hD p (hM p hp)).symm
  rw [e, sum_map_comm]
  refine congrArg List.sum (List.map_congr_left fun cells _ => ?_)
  exact (length_filter_ind (fun p => InCell cells p) _ (fun p => by simp) M).symm

theorem abs_sum_le {α : Type} (f : α → ℝ) (E : ℝ) : ∀ l : List α, (∀ a ∈ l, |f a| ≤ E) → |(l.map f).sum| ≤ l.length * E
  | [], _ => by simp
  | a :: l, h => by
      have ih := abs_sum_le f E l fun x hx => h x (by simp [hx])
      have := abs_add_le (f a) (l.map f).sum
      have := h a (by simp)
      rw [List.map_cons, List.sum_cons, List.length_cons]
      push_cast
      linarith

/-- If every box of the partitions holds the proportional number of points up to `E`, so does the box made up of them, up
to `E` times their number. -/
theorem region_error {box : List (ℝ × ℝ)} {Ds : List (List (Nat × Nat))} (hD : List.Forall₂ MadeUpOf box Ds)
    (M : List (List ℝ)) (hM : ∀ p ∈ M, p.length = box.length) (E : ℝ)
    (hE : ∀ cells ∈ List.sections Ds, |(boxCount cells M : ℝ) - M.length / ((cells.map Prod.fst).prod : ℝ)| ≤ E) :
    |(regionCount box M : ℝ) - M.length * regionVolume box| ≤ (Ds.map List.length).prod * E := by
  have e : (regionCount box M : ℝ) - M.length * regionVolume box =
      ((List.sections Ds).map fun cells => (boxCount cells M : ℝ) - M.length / ((cells.map Prod.fst).prod : ℝ)).sum := by
    rw [regionCount_sections hD M hM, ← sections_volume hD, ← List.sum_map_mul_left, sub_eq_add_neg, ← neg_one_mul, ← List.sum_map_mul_left,
      ← List.sum_map_add]
    refine congrArg List.sum (List.map_congr_left fun cells _ => ?_)
    rw [mul_one_div]
    ring
  rw [e]
  refine (abs_sum_le _ E _ hE).trans (le_of_eq ?_)
  congr 1
  rw [length_sections']

/-! ## Any box -/

/-- One interval lies in the other. -/
def Inside (I J : ℝ × ℝ) : Prop := ∀ x : ℝ, I.1 ≤ x ∧ x < I.2 → J.1 ≤ x ∧ x < J.2

theorem regionCount_mono {box box' : List (ℝ × ℝ)} (h : List.Forall₂ Inside box box')
    (M : List (List ℝ)) : regionCount box M ≤ regionCount box' M := by
  have key : ∀ p, InRegion box p → InRegion box' p := by
    induction h with
    | nil => exact fun p h => h
    | cons h1 _ ih =>
      intro p hp
      unfold InRegion at hp ⊢ ih
      obtain ⟨x, xs, hx, hxs, rfl⟩ := List.forall₂_cons_left_iff.1 hp
      exact .cons (h1 x hx) (ih xs hxs)
  classical
  unfold regionCount
  refine List.Sublist.length_le (List.monotone_filter_right M fun p hp => ?_)
  exact decide_eq_true (key p (of_decide_eq_true hp))

/-- Volumes of boxes with nearly equal sides are nearly equal. -/
theorem regionVolume_near {box box' : List (ℝ × ℝ)} {es : List ℝ}
    (h : List.Forall₂ (fun (I : ℝ × ℝ) (Je : (ℝ × ℝ) × ℝ) => 0 ≤ I.2 - I.1 ∧ I.2 - I.1 ≤ 1 ∧ 0 ≤ Je.1.2 - Je.1.1 ∧ Je.1.2 - Je.1.1 ≤ 1 ∧
      |(I.2 - I.1) - (Je.1.2 - Je.1.1)| ≤ Je.2) box (box'.zip es)) (hl : box'.length = es.length) :
    0 ≤ regionVolume box ∧ regionVolume box ≤ 1 ∧ 0 ≤ regionVolume box' ∧ regionVolume box' ≤ 1 ∧
    |regionVolume box - regionVolume box'| ≤ es.sum := by
  induction box generalizing box' es with
  | nil =>
    have h0 : box'.zip es = [] := List.forall₂_nil_left_iff.1 h
    rw [List.zip_eq_nil_iff] at h0
    have h1 : box' = [] ∧ es = [] := by
      rcases h0 with rfl | rfl
      · exact ⟨rfl, List.length_eq_zero_iff.1 (by simpa using hl.symm)⟩
      · exact ⟨List.length_eq_zero_iff.1 (by simpa using hl), rfl⟩
    obtain ⟨rfl, rfl⟩ := h1
    simp [regionVolume]
  | cons I box ih =>
    obtain ⟨Je, rest, h1, h2, h3⟩ := List.forall₂_cons_left_iff.1 h
    cases box' with
    | nil => simp at h3
    | cons J box' =>
      cases es with
      | nil => simp at h3
      | cons e es =>
        rw [List.zip_cons_cons] at h3
        injection h3 with h3 h4
        subst h3 h4
        simp only at h1
        obtain ⟨i1, i2, i3, i4, i5⟩ := ih h2 (by simpa using hl)
        obtain ⟨a1, a2, a3, a4, a5⟩ := h1
        unfold regionVolume at *
        rw [List.map_cons, List.map_cons, List.prod_cons, List.prod_cons, List.sum_cons]
        set u := I.2 - I.1
        set v := J.2 - J.1
        set P := (box.map fun I => I.2 - I.1).prod
        set Q := (box'.map fun I => I.2 - I.1).prod
        refine ⟨mul_nonneg a1 i1, mul_le_one₀ a2 i1 i2, mul_nonneg a3 i3, mul_le_one₀ a4 i3 i4, ?_⟩
        have e1 : u * P - v * Q = (u - v) * P + v * (P - Q) := by ring
        rw [e1]
        refine (abs_add_le _ _).trans ?_
        rw [abs_mul, abs_mul, abs_of_nonneg i1, abs_of_nonneg a3]
        have q1 : |u - v| * P ≤ e := (mul_le_of_le_one_right (abs_nonneg _) i2).trans a5
        have q2 : v * |P - Q| ≤ es.sum := (mul_le_of_le_one_left (abs_nonneg _) a4).trans i5
        linarith


/-- The strata are among those of a coordinate with base `g.1` down to level `g.2`, and few. -/
def FewStrata (g : Nat × Nat) (D : List (Nat × Nat)) : Prop :=
  (∀ c ∈ D, (∃ k ≤ g.2, c.1 = g.1 ^ k) ∧ c.2 < c.1) ∧ D.length ≤ 2 * (g.1 - 1) * g.2 + 1

/-- The lengths of two intervals in `[0, 1]` are nearly equal. -/
def NearLength (e : ℝ) (I J : ℝ × ℝ) : Prop :=
  0 ≤ I.2 - I.1 ∧ I.2 - I.1 ≤ 1 ∧ 0 ≤ J.2 - J.1 ∧ J.2 - J.1 ≤ 1 ∧ |(I.2 - I.1) - (J.2 - J.1)| ≤ e

theorem inner_interval {g : Nat × Nat} (hg : 1 < g.1) {I : ℝ × ℝ} (hI : 0 ≤ I.1 ∧ I.1 ≤ I.2 ∧ I.2 ≤ 1) :
    ∃ J D, MadeUpOf J D ∧ FewStrata g D ∧ NearLength (2 / (g.1 : ℝ) ^ g.2) I J ∧ Inside J I := by
  obtain ⟨b, m⟩ := g
  obtain ⟨u, v⟩ := I
  simp only at hg hI ⊢
  have hn : (0 : ℝ) < (b ^ m : Nat) := by
    have : 0 < b ^ m := by positivity
    exact_mod_cast this
  have hn' : ((b ^ m : Nat) : ℝ) = (b : ℝ) ^ m := by push_cast; rfl
  rw [← hn']
  set n : Nat := b ^ m with hndef
  have hu := Nat.ceil_lt_add_one (mul_nonneg hI.1 hn.le)
  have hu' := Nat.le_ceil (u * (n : ℝ))
  have hv0 : 0 ≤ v * (n : ℝ) := mul_nonneg (hI.1.trans hI.2.1) hn.le
  have hv := Nat.lt_floor_add_one (v * (n : ℝ))
  have hv' := Nat.floor_le hv0
  set A := ⌈u * (n : ℝ)⌉₊
  set B := ⌊v * (n : ℝ)⌋₊
  have hBn : B ≤ n := by
    have : (B : ℝ) ≤ n := hv'.trans (mul_le_of_le_one_left hn.le hI.2.2)
    exact_mod_cast this
  by_cases hAB : A ≤ B
  · obtain ⟨D, d1, d2, d3, d4⟩ := interval_strata hg m A B hAB hBn
    have hABR : (A : ℝ) ≤ B := by exact_mod_cast hAB
    have l1 : u ≤ (A : ℝ) / n := by rw [le_div_iff₀ hn]; exact hu'
    have l2 : (B : ℝ) / n ≤ v := by rw [div_le_iff₀ hn]; exact hv'
    have l3 : (A : ℝ) / n < u + 1 / n := by rw [div_lt_iff₀ hn, add_mul, one_div_mul_cancel hn.ne']; exact hu
    have l4 : v < (B : ℝ) / n + 1 / n := by
      rw [← add_div, lt_div_iff₀ hn]; exact hv
    have l5 : (A : ℝ) / n ≤ (B : ℝ) / n := by gcongr
    have l6 : (2 : ℝ) / n = 1 / n + 1 / n := by ring
    refine ⟨((A : ℝ) / n, (B : ℝ) / n), D, ⟨d3, ?_⟩, ⟨d1, d2⟩, ⟨by simp only; linarith, by simp only; linarith, by simp only; linarith, by simp only; linarith, ?_⟩, ?_⟩
    · rw [d4]; simp only; ring
    · simp only
      rw [abs_le, l6]
      constructor <;> linarith
    · intro x hx
      exact ⟨l1.trans hx.1, hx.2.trans_le l2⟩
  · have h1 : (B : ℝ) + 1 ≤ A := by exact_mod_cast (by omega : B + 1 ≤ A)
    have l : v - u ≤ 2 / n := by
      rw [le_div_iff₀ hn, sub_mul]
      linarith
    refine ⟨(0, 0), [], ⟨fun x => ?_, by simp⟩, ⟨by simp, by simp⟩, ⟨by simp only; linarith, by simp only; linarith, by simp, by simp, ?_⟩, ?_⟩
    · exact (ind_false fun h => absurd h.2 (not_lt.2 h.1)).symm
    · simp only [sub_zero]
      rw [abs_of_nonneg (by linarith)]
      exact l
    · intro x hx
      exact absurd hx.2 (not_lt.2 hx.1)

theorem outer_interval {g : Nat × Nat} (hg : 1 < g.1) {I : ℝ × ℝ} (hI : 0 ≤ I.1 ∧ I.1 ≤ I.2 ∧ I.2 ≤ 1) :
    ∃ J D, MadeUpOf J D ∧ FewStrata g D ∧ NearLength (2 / (g.1 : ℝ) ^ g.2) I J ∧ Inside I J := by
  obtain ⟨b, m⟩ := g
  obtain ⟨u, v⟩ := I
  simp only at hg hI ⊢
  have hn : (0 : ℝ) < (b ^ m : Nat) := by
    have : 0 < b ^ m := by positivity
    exact_mod_cast this
  have hn' : ((b ^ m : Nat) : ℝ) = (b : ℝ) ^ m := by push_cast; rfl
  rw [← hn']
  set n : Nat := b ^ m with hndef
  have hv0 : 0 ≤ v * (n : ℝ) := mul_nonneg (hI.1.trans hI.2.1) hn.le
  have hu := Nat.lt_floor_add_one (u * (n : ℝ))
  have hu' := Nat.floor_le (mul_nonneg hI.1 hn.le)
  have hv := Nat.ceil_lt_add_one hv0
  have hv' := Nat.le_ceil (v * (n : ℝ))
  have hBn : ⌈v * (n : ℝ)⌉₊ ≤ n := Nat.ceil_le.2 (mul_le_of_le_one_left hn.le hI.2.2)
  have huv : u * (n : ℝ) ≤ v * n := mul_le_mul_of_nonneg_right hI.2.1 hn.le
  set A := ⌊u * (n : ℝ)⌋₊
  set B := ⌈v * (n : ℝ)⌉₊
  have hABR : (A : ℝ) ≤ B := by linarith
  have hAB : A ≤ B := by exact_mod_cast hABR
  obtain ⟨D, d1, d2, d3, d4⟩ := interval_strata hg m A B hAB hBn
  have l1 : (A : ℝ) / n ≤ u := by rw [div_le_iff₀ hn]; exact hu'
  have l2 : v ≤ (B : ℝ) / n := by rw [le_div_iff₀ hn]; exact hv'
  have l3 : u < (A : ℝ) / n + 1 / n := by rw [← add_div, lt_div_iff₀ hn]; exact hu
  have l4 : (B : ℝ) / n < v + 1 / n := by rw [div_lt_iff₀ hn, add_mul, one_div_mul_cancel hn.ne']; exact hv
  have l5 : (B : ℝ) / n ≤ 1 := by rw [div_le_one hn]; exact_mod_cast hBn
  have l7 : 0 ≤ (A : ℝ) / n := by positivity
  have l6 : (2 : ℝ) / n = 1 / n + 1 / n := by ring
  refine ⟨((A : ℝ) / n, (B : ℝ) / n), D, ⟨d3, ?_⟩, ⟨d1, d2⟩, ⟨by simp only; linarith, by simp only; linarith, by simp only; linarith, by simp only; linarith, ?_⟩, ?_⟩
  · rw [d4]; simp only; ring
  · simp only
    rw [abs_le, l6]
    constructor <;> linarith
  · intro x hx
    exact ⟨l1.trans hx.1, hx.2.trans_le l2⟩

theorem choose_strata {R : ℝ × ℝ → ℝ × ℝ → Prop}
    (hR : ∀ {g : Nat × Nat}, 1 < g.1 → ∀ {I : ℝ × ℝ}, 0 ≤ I.1 ∧ I.1 ≤ I.2 ∧ I.2 ≤ 1 →
      ∃ J D, MadeUpOf J D ∧ FewStrata g D ∧ NearLength (2 / (g.1 : ℝ) ^ g.2) I J ∧ R I J) :
    ∀ (grid : List (Nat × Nat)) (box : List (ℝ × ℝ)), (∀ g ∈ grid, 1 < g.1) → box.length = grid.length →
      (∀ I ∈ box, 0 ≤ I.1 ∧ I.1 ≤ I.2 ∧ I.2 ≤ 1) →
      ∃ box' Ds, List.Forall₂ MadeUpOf box' Ds ∧ List.Forall₂ FewStrata grid Ds ∧ box'.length = grid.length ∧
        List.Forall₂ (fun (I : ℝ × ℝ) (Je : (ℝ × ℝ) × ℝ) => NearLength Je.2 I Je.1) box
          (box'.zip (grid.map fun g => 2 / (g.1 : ℝ) ^ g.2)) ∧
        List.Forall₂ R box box'
  | [], box, _, hl, _ => by
      have : box = [] := List.length_eq_zero_iff.1 (by simpa using hl)
      subst this
      exact ⟨[], [], .nil, .nil, rfl, .nil, .nil⟩
  | g :: grid, [], _, hl, _ => by simp at hl
  | g :: grid, I :: box, hg, hl, hI => by
      obtain ⟨box', Ds, h1, h2, h3, h4, h5⟩ := choose_strata hR grid box (fun x hx => hg x (by simp [hx])) (by simpa using hl)
        fun x hx => hI x (by simp [hx])
      obtain ⟨J, D, j1, j2, j3, j4⟩ := hR (hg g (by simp)) (hI I (by simp))
      exact ⟨J :: box', D :: Ds, .cons j1 h1, .cons j2 h2, by simp [h3], .cons j3 h4, .cons j4 h5⟩

/-- How many boxes of the partitions down to the levels of `grid` make up a box. -/
def strataBound (grid : List (Nat × Nat)) : Nat := (grid.map fun g => 2 * (g.1 - 1) * g.2 + 1).prod

theorem sections_grid {grid : List (Nat × Nat)} {Ds : List (List (Nat × Nat))} (h : List.Forall₂ FewStrata grid Ds) :
    (∀ cells ∈ List.sections Ds, List.Forall₂ (fun c g : Nat × Nat => (∃ k ≤ g.2, c.1 = g.1 ^ k) ∧ c.2 < c.1) cells grid) ∧
    (Ds.map List.length).prod ≤ strataBound grid := by
  induction h with
  | nil => simp [List.sections, strataBound]
  | cons h1 _ ih =>
    refine ⟨?_, ?_⟩
    · intro cells hc
      rw [List.mem_sections] at hc
      obtain ⟨c, cs, hc1, hc2, rfl⟩ := List.forall₂_cons_right_iff.1 hc
      exact .cons (h1.1 c hc1) (ih.1 cs (List.mem_sections.2 hc2))
    · unfold strataBound at ih ⊢
      rw [List.map_cons, List.map_cons, List.prod_cons, List.prod_cons]
      exact Nat.mul_le_mul h1.2 ih.2

/-- If every box of the partitions down to the levels of `grid` holds the proportional number of points up to `E`, then
every box at all does up to the given error. -/
theorem region_discrepancy (grid : List (Nat × Nat)) (hg : ∀ g ∈ grid, 1 < g.1) (M : List (List ℝ))
    (hM : ∀ p ∈ M, p.length = grid.length) (E : ℝ) (hE0 : 0 ≤ E)
    (hE : ∀ cells, List.Forall₂ (fun c g : Nat × Nat => (∃ k ≤ g.2, c.1 = g.1 ^ k) ∧ c.2 < c.1) cells grid →
      |(boxCount cells M : ℝ) - M.length / ((cells.map Prod.fst).prod : ℝ)| ≤ E)
    (box : List (ℝ × ℝ)) (hl : box.length = grid.length) (hI : ∀ I ∈ box, 0 ≤ I.1 ∧ I.1 ≤ I.2 ∧ I.2 ≤ 1) :
    |(regionCount box M : ℝ) - M.length * regionVolume box| ≤
      (strataBound grid : ℝ) * E + M.length * (grid.map fun g => 2 / (g.1 : ℝ) ^ g.2).sum := by
  have one : ∀ {R : ℝ × ℝ → ℝ × ℝ → Prop}, (∀ {g : Nat × Nat}, 1 < g.1 → ∀ {I : ℝ × ℝ}, 0 ≤ I.1 ∧ I.1 ≤ I.2 ∧ I.2 ≤ 1 →
      ∃ J D, MadeUpOf J D ∧ FewStrata g D ∧ NearLength (2 / (g.1 : ℝ) ^ g.2) I J ∧ R I J) →
      ∃ box', List.Forall₂ R box box' ∧
        |(regionCount box' M : ℝ) - M.length * regionVolume box'| ≤ (strataBound grid : ℝ) * E ∧
        |regionVolume box - regionVolume box'| ≤ (grid.map fun g => 2 / (g.1 : ℝ) ^ g.2).sum := by
    intro R hR
    obtain ⟨box', Ds, h1, h2, h3, h4, h5⟩ := choose_strata hR grid box hg hl hI
    obtain ⟨s1, s2⟩ := sections_grid h2
    refine ⟨box', h5, ?_, (regionVolume_near h4 (by simpa using h3)).2.2.2.2⟩
    refine (region_error h1 M (fun p hp => by rw [hM p hp, h3]) E fun cells hc => hE cells (s1 cells hc)).trans ?_
    refine mul_le_mul_of_nonneg_right ?_ hE0
    exact Nat.cast_le.2 s2
  obtain ⟨b1, i1, i2, i3⟩ := one (R := fun I J => Inside J I) inner_interval
  obtain ⟨b2, o1, o2, o3⟩ := one (R := Inside) outer_interval
  have m1 : (regionCount b1 M : ℝ) ≤ regionCount box M := by exact_mod_cast regionCount_mono (List.Forall₂.flip i1) M
  have m2 : (regionCount box M : ℝ) ≤ regionCount b2 M := by exact_mod_cast regionCount_mono o1 M
  have hN : (0 : ℝ) ≤ M.length := Nat.cast_nonneg _
  rw [abs_le] at i2 i3 o2 o3 ⊢
  have n1 := mul_le_mul_of_nonneg_left i3.2 hN
  have n2 := mul_le_mul_of_nonneg_left o3.1 hN
  rw [mul_sub] at n1 n2
  rw [mul_neg] at n2
  constructor <;> linarith

end Skopt
