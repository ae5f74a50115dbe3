import Verif.Lemmas.Discrepancy
import Verif.Props.SobolAll
import Mathlib.Analysis.SpecialFunctions.Pow.Asymptotics
import Mathlib.Analysis.SpecialFunctions.Log.Base
import Mathlib.Analysis.Complex.ExponentialBounds

/-!
# C115: every region of the space gets its fair share of the design

C97 and C105 speak about the boxes of partitions of the space into powers of the bases.  Here the box is arbitrary: the
number of points of a Halton, Hammersly or Sobol design in it is the proportional number up to an error that grows only
with a power of the logarithm of the number of points, whereas for points drawn at random it grows with the square root.
-/

namespace Skopt

/-- The error for a Halton design of `m` points with the bases `bs`. -/
def haltonError (bs : List Nat) (m : Nat) : Nat := (bs.map fun b => 2 * (b - 1) * Nat.clog b m + 1).prod + 2 * bs.length

theorem window_error (m P c : Nat) (hP : 0 < P) (h1 : m / P ≤ c) (h2 : c ≤ (m + P - 1) / P) :
    |(c : ℝ) - m / P| ≤ 1 := by
  have hPR : (0 : ℝ) < P := by exact_mod_cast hP
  have hdm := Nat.div_add_mod m P
  have hr := Nat.mod_lt m hP
  have e1 : c * P ≤ m + P - 1 := (Nat.mul_le_mul_right P h2).trans (Nat.div_mul_le_self _ _)
  have e2 : m < c * P + P := by
    have := Nat.mul_le_mul_left P h1
    rw [Nat.mul_comm P c] at this
    omega
  have e1R : (c : ℝ) * P ≤ m + P := by
    have : c * P ≤ m + P := by omega
    exact_mod_cast this
  have e2R : (m : ℝ) ≤ c * P + P := by exact_mod_cast e2.le
  rw [abs_le]
  constructor
  · rw [neg_le_sub_iff_le_add, div_le_iff₀ hPR]
    linarith
  · rw [sub_le_iff_le_add, ← sub_le_iff_le_add', le_div_iff₀ hPR]
    linarith

/-- Consecutive points of the Halton sequence. -/
theorem halton_rows_error (bs : List Nat) (hb : ∀ b ∈ bs, 1 < b) (hco : bs.Pairwise Nat.Coprime) (s m : Nat)
    (box : List (ℝ × ℝ)) (hl : box.length = bs.length) (hI : ∀ I ∈ box, 0 ≤ I.1 ∧ I.1 ≤ I.2 ∧ I.2 ≤ 1) :
    |(regionCount box ((List.range m).map fun i => bs.map fun b => radicalInverse b (i + s)) : ℝ) -
      m * regionVolume box| ≤ haltonError bs m := by
  set M := (List.range m).map fun i => bs.map fun b => radicalInverse b (i + s) with hM
  have hlen : M.length = m := by simp [hM]
  have key := region_discrepancy (bs.map fun b => (b, Nat.clog b m)) (by
      intro g hg
      obtain ⟨b, hbm, rfl⟩ := List.mem_map.1 hg
      exact hb b hbm) M (by
      intro p hp
      obtain ⟨i, _, rfl⟩ := List.mem_map.1 hp
      simp) 1 zero_le_one (by
      intro cells hc
      have hc' : BaseBox cells bs := by
        unfold BaseBox
        rw [List.forall₂_map_right_iff] at hc
        exact hc.imp fun c b h => ⟨⟨h.1.choose, h.1.choose_spec.2⟩, h.2⟩
      obtain ⟨v, hv⟩ := box_congruence bs cells hb hco hc'
      have hpos : 0 < (cells.map Prod.fst).prod := by
        refine List.prod_pos ?_
        intro x hx
        obtain ⟨c, hcm, rfl⟩ := List.mem_map.1 hx
        obtain ⟨i, hi, rfl⟩ := List.mem_iff_getElem.1 hcm
        have := (List.Forall₂.get hc' hi (by have := List.Forall₂.length_eq hc'; omega)).2
        simp only [List.get_eq_getElem] at this
        omega
      have e : boxCount cells M = Nat.count (fun i => i + s ≡ v [MOD (cells.map Prod.fst).prod]) m := by
        rw [← countP_range, hM]
        unfold boxCount
        rw [List.filter_map, List.length_map]
        congr 1
        refine List.filter_congr fun i _ => ?_
        simp only [Function.comp_apply]
        rw [decide_eq_decide]
        exact hv (i + s)
      rw [e, hlen]
      obtain ⟨w1, w2⟩ := count_window _ v s m hpos
      exact window_error m _ _ hpos w1 w2) box (by simpa using hl) hI
  rw [hlen] at key
  refine key.trans ?_
  have e1 : strataBound (bs.map fun b => (b, Nat.clog b m)) = (bs.map fun b => 2 * (b - 1) * Nat.clog b m + 1).prod := by
    unfold strataBound
    rw [List.map_map]
    rfl
  have e2 : (m : ℝ) * ((bs.map fun b => (b, Nat.clog b m)).map fun g => 2 / (g.1 : ℝ) ^ g.2).sum ≤ 2 * bs.length := by
    rw [List.map_map, ← List.sum_map_mul_left]
    have : ∀ l : List Nat, (∀ b ∈ l, 1 < b) →
        (l.map fun b => (m : ℝ) * ((fun g : Nat × Nat => 2 / (g.1 : ℝ) ^ g.2) ∘ fun b => (b, Nat.clog b m)) b).sum ≤ 2 * l.length := by
      intro l hl
      induction l with
      | nil => simp
      | cons b l ih =>
        have := ih fun x hx => hl x (by simp [hx])
        rw [List.map_cons, List.sum_cons, List.length_cons]
        have hbp : (0 : ℝ) < (b : ℝ) ^ Nat.clog b m := by
          have : 0 < b := by have := hl b (by simp); omega
          positivity
        have hle : (m : ℝ) ≤ (b : ℝ) ^ Nat.clog b m := by exact_mod_cast Nat.le_pow_clog (hl b (by simp)) m
        have h2 : (m : ℝ) * (2 / (b : ℝ) ^ Nat.clog b m) ≤ 2 := by
          rw [← mul_div_assoc, div_le_iff₀ hbp]
          linarith
        simp only [Function.comp_apply] at this ⊢
        push_cast
        linarith
    exact this bs hb
  rw [e1, mul_one]
  unfold haltonError
  push_cast
  linarith

/-- **C115 (Halton).** In exact arithmetic, for pairwise coprime bases, whatever the number `m` of points and whatever the
skip: every box in the unit cube holds `m` times its volume many points, up to
`∏ (2 (b - 1) ⌈log_b m⌉ + 1) + 2 n`. -/
theorem C115_halton (h : Halton) (n m : Nat) (draw : ℤ) (hn : 0 < n) (hb : GoodBases h n)
    (hs : GoodSkip h draw) (bs : List Nat) (hbs : h.bases n = .ok bs) (hco : bs.Pairwise Nat.Coprime) :
    ∃ M, h.unit exact n m draw = .ok M ∧ M.length = m ∧
      ∀ box : List (ℝ × ℝ), box.length = n → (∀ I ∈ box, 0 ≤ I.1 ∧ I.1 ≤ I.2 ∧ I.2 ≤ 1) →
        |(regionCount box M : ℝ) - m * regionVolume box| ≤ haltonError bs m := by
  obtain ⟨bs', s, h1, _, hl, hb1, hu⟩ := Halton.unit_spec hn hb hs m
  rw [hbs] at h1
  injection h1 with h1
  subst h1
  exact ⟨_, hu, by simp, fun box hbox hI => halton_rows_error bs hb1 hco s m box (by rw [hbox, hl]) hI⟩

/-- Two dimensions, bases 2 and 3, a million points: the box `[1/4, 1/2) × [0, 1/7)` holds its share up to 2177
points, about 0.2 %.  Meets the hypotheses of `C115_halton`. -/
example : ∃ M, ({ primes := some [2, 3] } : Halton).unit exact 2 1000000 0 = .ok M ∧
    |(regionCount [(1 / 4, 1 / 2), (0, 1 / 7)] M : ℝ) - 1000000 * (1 / 28)| ≤ 2177 := by
  obtain ⟨M, h1, -, h3⟩ := C115_halton { primes := some [2, 3] } 2 1000000 0 (by norm_num)
    (Or.inr ⟨_, rfl, rfl, by decide⟩) (Or.inl ⟨le_rfl, rfl⟩) [2, 3] rfl (by decide)
  refine ⟨M, h1, ?_⟩
  have := h3 [(1 / 4, 1 / 2), (0, 1 / 7)] rfl (by
    intro I hI
    rcases List.mem_cons.1 hI with rfl | hI
    · norm_num
    · rw [List.mem_singleton.1 hI]; norm_num)
  have e : haltonError [2, 3] 1000000 = 2177 := by
    have e2 : Nat.clog 2 1000000 = 20 :=
      le_antisymm ((Nat.clog_le_iff_le_pow (by norm_num)).2 (by norm_num)) ((Nat.lt_clog_iff_pow_lt (by norm_num)).2 (by norm_num))
    have e3 : Nat.clog 3 1000000 = 13 :=
      le_antisymm ((Nat.clog_le_iff_le_pow (by norm_num)).2 (by norm_num)) ((Nat.lt_clog_iff_pow_lt (by norm_num)).2 (by norm_num))
    norm_num [haltonError, e2, e3]
  rw [e] at this
  norm_num [regionVolume] at this ⊢
  exact this

/-! ## In the space -/

theorem inRegion_cubePoint : ∀ (ds : List (RealDim ℝ)) (box : List (ℝ × ℝ)) (r : List ℝ), (∀ d ∈ ds, PlainReal d) →
    r.length = ds.length → box.length = ds.length →
    (InRegion box (cubePoint ds r) ↔ InRegion (List.zipWith (fun (d : RealDim ℝ) (I : ℝ × ℝ) =>
      ((I.1 - d.low) / (d.high - d.low), (I.2 - d.low) / (d.high - d.low))) ds box) r)
  | [], box, r, _, hr, hb => by
      have h1 : r = [] := List.length_eq_zero_iff.1 (by simpa using hr)
      have h2 : box = [] := List.length_eq_zero_iff.1 (by simpa using hb)
      subst h1 h2
      exact Iff.rfl
  | d :: ds, [], r, _, _, hb => by simp at hb
  | d :: ds, I :: box, [], _, hr, _ => by simp at hr
  | d :: ds, I :: box, u :: r, hd, hr, hb => by
      have ih := inRegion_cubePoint ds box r (fun x hx => hd x (by simp [hx])) (by simpa using hr) (by simpa using hb)
      have hw : 0 < d.high - d.low := sub_pos.2 (hd d (by simp)).1
      unfold InRegion cubePoint at ih ⊢
      rw [List.zipWith_cons_cons, List.zipWith_cons_cons, List.forall₂_cons, List.forall₂_cons, ih]
      refine and_congr_left fun _ => ?_
      simp only
      rw [div_le_iff₀ hw, lt_div_iff₀ hw]
      constructor <;> rintro ⟨a, b⟩ <;> constructor <;> linarith

theorem spaceRegionCount_cube {ds : List (RealDim ℝ)} (hd : ∀ d ∈ ds, PlainReal d) {M : List (List ℝ)}
    (hl : ∀ r ∈ M, r.length = ds.length) (box : List (ℝ × ℝ)) (hb : box.length = ds.length) :
    spaceRegionCount box (M.map fun r => (cubePoint ds r).map Val.num) =
      regionCount (List.zipWith (fun (d : RealDim ℝ) (I : ℝ × ℝ) =>
        ((I.1 - d.low) / (d.high - d.low), (I.2 - d.low) / (d.high - d.low))) ds box) M := by
  unfold spaceRegionCount regionCount
  rw [List.filter_map, List.length_map]
  congr 1
  refine List.filter_congr fun r hr => ?_
  simp only [Function.comp_apply]
  rw [decide_eq_decide, ← inRegion_cubePoint ds box r hd (hl r hr) hb]
  constructor
  · rintro ⟨xs, e, h⟩
    rw [map_num_inj e]
    exact h
  · intro h
    exact ⟨_, rfl, h⟩

theorem regionVolume_unit : ∀ (ds : List (RealDim ℝ)) (box : List (ℝ × ℝ)),
    regionVolume (List.zipWith (fun (d : RealDim ℝ) (I : ℝ × ℝ) =>
        ((I.1 - d.low) / (d.high - d.low), (I.2 - d.low) / (d.high - d.low))) ds box) = spaceShare ds box
  | [], box => by simp [regionVolume, spaceShare]
  | d :: ds, [] => by simp [regionVolume, spaceShare]
  | d :: ds, I :: box => by
      have ih := regionVolume_unit ds box
      unfold regionVolume spaceShare at ih ⊢
      rw [List.zipWith_cons_cons, List.zipWith_cons_cons, List.map_cons, List.prod_cons, List.prod_cons, ih]
      simp only
      congr 1
      ring

theorem unit_box {ds : List (RealDim ℝ)} {box : List (ℝ × ℝ)} (hd : ∀ d ∈ ds, PlainReal d) (h : BoxOf ds box) :
    ∀ I ∈ List.zipWith (fun (d : RealDim ℝ) (I : ℝ × ℝ) =>
        ((I.1 - d.low) / (d.high - d.low), (I.2 - d.low) / (d.high - d.low))) ds box, 0 ≤ I.1 ∧ I.1 ≤ I.2 ∧ I.2 ≤ 1 := by
  induction h with
  | nil => simp
  | @cons d I ds box h1 _ ih =>
    intro J hJ
    rw [List.zipWith_cons_cons] at hJ
    rcases List.mem_cons.1 hJ with rfl | hJ
    · have hw : 0 < d.high - d.low := sub_pos.2 (hd d (by simp)).1
      simp only
      obtain ⟨a, b, c⟩ := h1
      refine ⟨div_nonneg (by linarith) hw.le, ?_, ?_⟩
      · gcongr
      · rw [div_le_one hw]
        linarith
    · exact ih (fun x hx => hd x (by simp [hx])) J hJ

/-- **C115 (`Halton().generate`).** In a space of uniform `Real` dimensions every box holds the share of the points that
it has of the space, up to the error of `C115_halton` for the first primes as bases. -/
theorem C115_halton_space (h : Halton) (ds : List (RealDim ℝ)) (m : Nat) (draw : ℤ) (hne : ds ≠ [])
    (hd : ∀ d ∈ ds, PlainReal d) (hp : h.primes = none) (hs : GoodSkip h draw) (hm : 0 < m) :
    ∃ pts, (h.generate exact (ds.map Dim.real) m draw).2 = .ok pts ∧ pts.length = m ∧
      ∀ box, BoxOf ds box → |(spaceRegionCount box pts : ℝ) - m * spaceShare ds box| ≤
        haltonError ((List.range ds.length).map (Nat.nth Nat.Prime)) m := by
  have hpos : 0 < ds.length := List.length_pos_iff.2 hne
  obtain ⟨bs, s, hbs, _, hl, hb1, hu⟩ := Halton.unit_spec hpos (Or.inl hp) hs m
  rw [Halton.bases_none hp hpos] at hbs
  injection hbs with hbs
  subst hbs
  set bs := (List.range ds.length).map (Nat.nth Nat.Prime) with hbsdef
  set M := (List.range m).map fun i => bs.map fun b => radicalInverse b (i + s) with hM
  have hlen : ∀ r ∈ M, r.length = ds.length := by
    intro r hr
    obtain ⟨i, _, rfl⟩ := List.mem_map.1 hr
    simpa using hl
  have hunit : ∀ r ∈ M, ∀ x ∈ r, 0 ≤ x ∧ x ≤ 1 := by
    intro r hr x hx
    obtain ⟨i, _, rfl⟩ := List.mem_map.1 hr
    obtain ⟨b, hbm, rfl⟩ := List.mem_map.1 hx
    have := radicalInverse_range (hb1 b hbm) (i + s)
    exact ⟨this.1, this.2.le⟩
  have hMlen : M.length = m := by simp [hM]
  have hMne : M ≠ [] := by intro h0; rw [h0] at hMlen; simp at hMlen; omega
  refine ⟨M.map fun r => (cubePoint ds r).map Val.num, ?_, by simpa using hMlen, fun box hbox => ?_⟩
  · unfold Halton.generate
    rw [withNormalized_snd _ fun d hd' => by
      obtain ⟨d', h', rfl⟩ := List.mem_map.1 hd'
      exact (hd d' h').valid.legalTransform]
    simp only [List.length_map]
    rw [hu, ok_bind, inverse_cube hne hd hMne hlen hunit]
  · have hbl : box.length = ds.length := (List.Forall₂.length_eq hbox).symm
    rw [spaceRegionCount_cube hd hlen box hbl, ← regionVolume_unit]
    exact halton_rows_error bs hb1 (primes_coprime _) s m _ (by simp [hbl, hbsdef]) (unit_box hd hbox)

/-- A box of `Real(-5, 10) × Real(0, 15)`: two thirds of the first range and a third of the second.  Meets the hypotheses
of `C115_halton_space` and `C115_halton_converges`. -/
example : ∃ pts, ((({} : Halton).generate exact ([⟨-5, 10, .uniform, 10, .identity, none, id⟩,
      ⟨0, 15, .uniform, 10, .normalize, none, id⟩].map Dim.real) 1000000 0).2) = .ok pts ∧
    |(spaceRegionCount [(-5, 5), (2, 7)] pts : ℝ) - 1000000 * (2 / 9)| ≤
      haltonError ((List.range 2).map (Nat.nth Nat.Prime)) 1000000 := by
  obtain ⟨pts, h1, -, h3⟩ := C115_halton_space {} [⟨-5, 10, .uniform, 10, .identity, none, id⟩,
      ⟨0, 15, .uniform, 10, .normalize, none, id⟩] 1000000 0 (by simp) (by
    intro d hd
    rcases List.mem_cons.1 hd with rfl | hd
    · exact ⟨by norm_num, rfl, rfl, Or.inl rfl⟩
    · rw [List.mem_singleton.1 hd]
      exact ⟨by norm_num, rfl, rfl, Or.inr rfl⟩) rfl (Or.inl ⟨le_rfl, rfl⟩) (by norm_num)
  refine ⟨pts, h1, ?_⟩
  have := h3 [(-5, 5), (2, 7)] (.cons ⟨by norm_num, by norm_num, by norm_num⟩ (.cons ⟨by norm_num, by norm_num, by norm_num⟩ .nil))
  have e : spaceShare [⟨-5, 10, .uniform, 10, .identity, none, id⟩, ⟨0, 15, .uniform, 10, .normalize, none, id⟩]
      [(-5, 5), (2, 7)] = 2 / 9 := by norm_num [spaceShare]
  rw [e] at this
  simpa using this

/-! ## The error is small -/

theorem clog_le_log {b m : Nat} (hb : 1 < b) (hm : 3 ≤ m) : (Nat.clog b m : ℝ) ≤ 3 * Real.log m := by
  have h1 : Nat.clog b m ≤ Nat.clog 2 m := Nat.clog_anti_left (by norm_num) hb
  have h2 : (Nat.clog 2 m : ℝ) ≤ Real.logb 2 m + 1 := by
    have := (Nat.ceil_lt_add_one (Real.logb_nonneg (b := 2) (by norm_num) (x := (m : ℝ)) (by
      have : 1 ≤ m := by omega
      exact_mod_cast this))).le
    rw [show (2 : ℝ) = ((2 : Nat) : ℝ) by norm_num, Real.natCeil_logb_natCast] at this
    exact_mod_cast this
  have h3 : (1 : ℝ) ≤ Real.log m := by
    rw [Real.le_log_iff_exp_le (by positivity)]
    have h3 : (3 : ℝ) ≤ m := by exact_mod_cast hm
    have := Real.exp_one_lt_d9
    linarith
  have h4 : Real.logb 2 m ≤ 2 * Real.log m := by
    rw [Real.logb, div_le_iff₀ (Real.log_pos (by norm_num))]
    have : (1 / 2 : ℝ) ≤ Real.log 2 := by have := Real.log_two_gt_d9; linarith
    nlinarith
  have h5 : (Nat.clog b m : ℝ) ≤ Nat.clog 2 m := by exact_mod_cast h1
  linarith

theorem haltonError_prod (bs : List Nat) (hb : ∀ b ∈ bs, 1 < b) (m : Nat) (hm : 3 ≤ m) (hlog : (1 : ℝ) ≤ Real.log m) :
    (((bs.map fun b => 2 * (b - 1) * Nat.clog b m + 1).prod : Nat) : ℝ) ≤
      (bs.map fun b : Nat => 6 * (b : ℝ)).prod * Real.log m ^ bs.length := by
  induction bs with
  | nil => simp
  | cons b bs ih =>
    have ih := ih fun x hx => hb x (by simp [hx])
    have h1 := clog_le_log (hb b (by simp)) hm
    have hb1 : 1 < b := hb b (by simp)
    rw [List.map_cons, List.prod_cons, List.map_cons, List.prod_cons, List.length_cons, pow_succ]
    rw [Nat.cast_mul]
    have e : ((2 * (b - 1) * Nat.clog b m + 1 : Nat) : ℝ) ≤ 6 * b * Real.log m := by
      push_cast [Nat.cast_sub hb1.le]
      have hb' : (1 : ℝ) ≤ b := by exact_mod_cast hb1.le
      nlinarith
    calc _ ≤ (6 * b * Real.log m) * ((bs.map fun b : Nat => 6 * (b : ℝ)).prod * Real.log m ^ bs.length) := by
          refine mul_le_mul e ih (Nat.cast_nonneg _) ?_
          positivity
      _ = _ := by ring

/-- The error is bounded by a power of the logarithm. -/
theorem haltonError_le (bs : List Nat) (hb : ∀ b ∈ bs, 1 < b) (m : Nat) (hm : 3 ≤ m) :
    (haltonError bs m : ℝ) ≤ (bs.map fun b : Nat => 6 * (b : ℝ)).prod * Real.log m ^ bs.length + 2 * bs.length := by
  have hlog : (1 : ℝ) ≤ Real.log m := by
    rw [Real.le_log_iff_exp_le (by positivity)]
    have h3 : (3 : ℝ) ≤ m := by exact_mod_cast hm
    have := Real.exp_one_lt_d9
    linarith
  have main : (((bs.map fun b => 2 * (b - 1) * Nat.clog b m + 1).prod : Nat) : ℝ) ≤
      (bs.map fun b : Nat => 6 * (b : ℝ)).prod * Real.log m ^ bs.length := haltonError_prod bs hb m hm hlog
  unfold haltonError
  rw [Nat.cast_add, Nat.cast_mul, Nat.cast_ofNat]
  linarith

/-- **C115 (the share of the points converges).** For every space of uniform `Real` dimensions and every `ε > 0` there is a
number of points from which on, for every skip and every box at once, the share of the points of `Halton().generate` that
lie in the box differs from the share the box has of the space by at most `ε`. -/
theorem C115_halton_converges (ds : List (RealDim ℝ)) (hne : ds ≠ []) (hd : ∀ d ∈ ds, PlainReal d) (ε : ℝ) (hε : 0 < ε) :
    ∃ N, ∀ m, N ≤ m → ∀ (h : Halton) (draw : ℤ), h.primes = none → GoodSkip h draw →
      ∃ pts, (h.generate exact (ds.map Dim.real) m draw).2 = .ok pts ∧ pts.length = m ∧
        ∀ box, BoxOf ds box → |(spaceRegionCount box pts : ℝ) / m - spaceShare ds box| ≤ ε := by
  set bs := (List.range ds.length).map (Nat.nth Nat.Prime) with hbs
  have hb1 : ∀ b ∈ bs, 1 < b := by
    intro b hb
    obtain ⟨i, _, rfl⟩ := List.mem_map.1 hb
    exact (Nat.prime_nth_prime i).one_lt
  set C := (bs.map fun b : Nat => 6 * (b : ℝ)).prod with hC
  have h0 : Filter.Tendsto (fun x : ℝ => (C * Real.log x ^ bs.length + 2 * bs.length) / x) Filter.atTop (nhds 0) := by
    have h1 : (fun x : ℝ => C * Real.log x ^ bs.length + 2 * bs.length) =o[Filter.atTop] (id : ℝ → ℝ) := by
      refine (Real.isLittleO_pow_log_id_atTop.const_mul_left C).add ?_
      exact Asymptotics.isLittleO_const_id_atTop _
    exact h1.tendsto_div_nhds_zero
  have h1 := (h0.comp tendsto_natCast_atTop_atTop).eventually (ge_mem_nhds hε)
  obtain ⟨N, hN⟩ := Filter.eventually_atTop.1 h1
  refine ⟨max N 3, fun m hm h draw hp hs => ?_⟩
  have hm3 : 3 ≤ m := (le_max_right _ _).trans hm
  have hmR : (0 : ℝ) < m := by
    have : 0 < m := by omega
    exact_mod_cast this
  obtain ⟨pts, p1, p2, p3⟩ := C115_halton_space h ds m draw hne hd hp hs (by omega)
  refine ⟨pts, p1, p2, fun box hbox => ?_⟩
  have e : (spaceRegionCount box pts : ℝ) / m - spaceShare ds box =
      ((spaceRegionCount box pts : ℝ) - m * spaceShare ds box) / m := by
    field_simp
  rw [e, abs_div, abs_of_pos hmR]
  refine le_trans ?_ (hN m ((le_max_left _ _).trans hm))
  simp only [Function.comp_apply]
  gcongr
  exact (p3 box hbox).trans (haltonError_le bs hb1 m hm3)

/-! ## Hammersly -/

theorem haltonError_mono (bs : List Nat) {w m : Nat} (h : w ≤ m) : haltonError bs w ≤ haltonError bs m := by
  unfold haltonError
  refine Nat.add_le_add_right ?_ _
  induction bs with
  | nil => simp
  | cons b bs ih =>
    rw [List.map_cons, List.map_cons, List.prod_cons, List.prod_cons]
    refine Nat.mul_le_mul ?_ ih
    exact Nat.add_le_add_right (Nat.mul_le_mul_left _ (Nat.clog_mono_right _ h)) 1

theorem inRegion_snoc {I : ℝ × ℝ} {x : ℝ} : ∀ (box : List (ℝ × ℝ)) (p : List ℝ), box.length = p.length →
    (InRegion (box ++ [I]) (p ++ [x]) ↔ InRegion box p ∧ I.1 ≤ x ∧ x < I.2)
  | [], [], _ => by simp [InRegion]
  | [], _ :: _, h => by simp at h
  | _ :: _, [], h => by simp at h
  | d :: ds, y :: ys, h => by
      have ih := inRegion_snoc (I := I) (x := x) ds ys (by simpa using h)
      unfold InRegion at ih ⊢
      rw [List.cons_append, List.cons_append, List.forall₂_cons, List.forall₂_cons, ih]
      tauto

theorem regionVolume_range (box : List (ℝ × ℝ)) (hI : ∀ I ∈ box, 0 ≤ I.1 ∧ I.1 ≤ I.2 ∧ I.2 ≤ 1) :
    0 ≤ regionVolume box ∧ regionVolume box ≤ 1 := by
  induction box with
  | nil => simp [regionVolume]
  | cons I box ih =>
    obtain ⟨i1, i2⟩ := ih fun J hJ => hI J (by simp [hJ])
    obtain ⟨h1, h2, h3⟩ := hI I (by simp)
    unfold regionVolume at *
    rw [List.map_cons, List.prod_cons]
    exact ⟨mul_nonneg (by linarith) i1, mul_le_one₀ (by linarith) i1 i2⟩

/-- **C115 (Hammersly).** In two or more dimensions every box in the unit cube holds `m` times its volume many points of a
Hammersly design of `m` points, up to one more than the error of a Halton design with one dimension less. -/
theorem C115_hammersly (h : Halton) (n m : Nat) (draw : ℤ) (hn : 2 ≤ n) (hm : 0 < m) (hb : GoodBases h (n - 1))
    (hs : GoodSkip h draw) (bs : List Nat) (hbs : h.bases (n - 1) = .ok bs) (hco : bs.Pairwise Nat.Coprime) :
    ∃ M, Hammersly.unit exact h n m draw = .ok M ∧ M.length = m ∧
      ∀ box : List (ℝ × ℝ), box.length = n → (∀ I ∈ box, 0 ≤ I.1 ∧ I.1 ≤ I.2 ∧ I.2 ≤ 1) →
        |(regionCount box M : ℝ) - m * regionVolume box| ≤ haltonError bs m + 1 := by
  have hb1 : bs.length = n - 1 ∧ ∀ b ∈ bs, 1 < b := by
    obtain ⟨bs', h1, h0, h2⟩ := hb.bases (by omega)
    rw [hbs] at h1
    injection h1 with h1
    subst h1
    exact ⟨h0, h2⟩
  obtain ⟨s, hu⟩ := Hammersly.unit_rows (m := m) hn hb hs hm hbs
  refine ⟨_, hu, by simp, fun box hl hI => ?_⟩
  have hmR : (0 : ℝ) < m := by exact_mod_cast hm
  obtain ⟨box0, J, rfl⟩ : ∃ box0 J, box = box0 ++ [J] := by
    rcases List.eq_nil_or_concat box with rfl | ⟨b0, J, rfl⟩
    · simp at hl; omega
    · exact ⟨b0, J, by simp⟩
  have hl0 : box0.length = bs.length := by simp at hl; omega
  obtain ⟨J1, J2, J3⟩ := hI J (by simp)
  have hI0 : ∀ I ∈ box0, 0 ≤ I.1 ∧ I.1 ≤ I.2 ∧ I.2 ≤ 1 := fun I hI' => hI I (by simp [hI'])
  set a := ⌈J.1 * m⌉₊ with ha
  set c := ⌈J.2 * m⌉₊ with hc
  have hac : a ≤ c := Nat.ceil_mono (mul_le_mul_of_nonneg_right J2 hmR.le)
  have hcm : c ≤ m := Nat.ceil_le.2 (mul_le_of_le_one_left hmR.le J3)
  classical
  have e : regionCount (box0 ++ [J]) ((List.range m).map fun i =>
      (bs.map fun b => radicalInverse b (i + s)) ++ [(i : ℝ) / m]) =
      regionCount box0 ((List.range (c - a)).map fun i => bs.map fun b => radicalInverse b (i + (a + s))) := by
    have e1 : regionCount (box0 ++ [J]) ((List.range m).map fun i =>
        (bs.map fun b => radicalInverse b (i + s)) ++ [(i : ℝ) / m]) =
        Nat.count (fun i => InRegion box0 (bs.map fun b => radicalInverse b (i + s)) ∧ a ≤ i ∧ i < a + (c - a)) m := by
      rw [← countP_range]
      unfold regionCount
      rw [List.filter_map, List.length_map]
      congr 1
      refine List.filter_congr fun i _ => ?_
      simp only [Function.comp_apply]
      rw [decide_eq_decide, inRegion_snoc _ _ (by simpa using hl0)]
      refine and_congr_right fun _ => ?_
      rw [le_div_iff₀ hmR, div_lt_iff₀ hmR, ← Nat.ceil_le, ← ha, ← Nat.lt_ceil, ← hc]
      omega
    have e2 : regionCount box0 ((List.range (c - a)).map fun i => bs.map fun b => radicalInverse b (i + (a + s))) =
        Nat.count (fun i => InRegion box0 (bs.map fun b => radicalInverse b (i + a + s))) (c - a) := by
      rw [← countP_range]
      unfold regionCount
      rw [List.filter_map, List.length_map]
      congr 1
      refine List.filter_congr fun i _ => ?_
      simp only [Function.comp_apply, Nat.add_assoc]
    rw [e1, e2]
    exact count_slab (fun i => InRegion box0 (bs.map fun b => radicalInverse b (i + s))) a (c - a) m (by omega)
  have key := halton_rows_error bs hb1.2 hco (a + s) (c - a) box0 hl0 hI0
  have hmono : (haltonError bs (c - a) : ℝ) ≤ haltonError bs m := by
    exact_mod_cast haltonError_mono bs (by omega)
  obtain ⟨v0, v1⟩ := regionVolume_range box0 hI0
  have hvol : regionVolume (box0 ++ [J]) = regionVolume box0 * (J.2 - J.1) := by
    unfold regionVolume
    rw [List.map_append, List.prod_append]
    simp
  have hw : |((c - a : Nat) : ℝ) - m * (J.2 - J.1)| ≤ 1 := by
    rw [Nat.cast_sub hac]
    have c1 := Nat.le_ceil (J.2 * m)
    have c2 := Nat.ceil_lt_add_one (mul_nonneg (J1.trans J2) hmR.le)
    have a1 := Nat.le_ceil (J.1 * m)
    have a2 := Nat.ceil_lt_add_one (mul_nonneg J1 hmR.le)
    rw [← hc] at c1 c2
    rw [← ha] at a1 a2
    rw [abs_le]
    constructor <;> linarith
  rw [e, hvol]
  have split : ∀ x : ℝ, x - m * (regionVolume box0 * (J.2 - J.1)) =
      (x - ((c - a : Nat) : ℝ) * regionVolume box0) + (((c - a : Nat) : ℝ) - m * (J.2 - J.1)) * regionVolume box0 := by
    intro x; ring
  rw [split]
  refine (abs_add_le _ _).trans ?_
  have : |(((c - a : Nat) : ℝ) - m * (J.2 - J.1)) * regionVolume box0| ≤ 1 := by
    rw [abs_mul, abs_of_nonneg v0]
    exact mul_le_one₀ hw v0 v1
  linarith

/-- Three dimensions, bases 2 and 3 for the first two.  Meets the hypotheses of `C115_hammersly`. -/
example : ∃ M, Hammersly.unit exact { primes := some [2, 3] } 3 1000000 0 = .ok M ∧
    |(regionCount [(1 / 4, 1 / 2), (0, 1 / 7), (1 / 3, 1)] M : ℝ) - 1000000 * (1 / 42)| ≤ 2178 := by
  obtain ⟨M, h1, -, h3⟩ := C115_hammersly { primes := some [2, 3] } 3 1000000 0 (by norm_num) (by norm_num)
    (Or.inr ⟨_, rfl, rfl, by decide⟩) (Or.inl ⟨le_rfl, rfl⟩) [2, 3] rfl (by decide)
  refine ⟨M, h1, ?_⟩
  have := h3 [(1 / 4, 1 / 2), (0, 1 / 7), (1 / 3, 1)] rfl (by
    intro I hI
    simp only [List.mem_cons, List.not_mem_nil, or_false] at hI
    rcases hI with rfl | rfl | rfl <;> norm_num)
  have e : haltonError [2, 3] 1000000 = 2177 := by
    have e2 : Nat.clog 2 1000000 = 20 :=
      le_antisymm ((Nat.clog_le_iff_le_pow (by norm_num)).2 (by norm_num)) ((Nat.lt_clog_iff_pow_lt (by norm_num)).2 (by norm_num))
    have e3 : Nat.clog 3 1000000 = 13 :=
      le_antisymm ((Nat.clog_le_iff_le_pow (by norm_num)).2 (by norm_num)) ((Nat.lt_clog_iff_pow_lt (by norm_num)).2 (by norm_num))
    norm_num [haltonError, e2, e3]
  rw [e] at this
  norm_num [regionVolume] at this ⊢
  exact this

/-! ## Sobol -/

/-- **C115 (Sobol).** `Sobol(skip, randomize=False).generate` on a space of up to forty uniform `Real` dimensions: with `T`
the sum of the degrees less one of the polynomials of the dimensions, every box holds the share of the points that it has
of the space, up to `2^T (2m + 1)^d + 2 d n / 2^m`, for every `m` that 30 bits allow for (`d m + T ≤ 30`). -/
theorem C115_sobol (skip : Nat) (s : Sobol) (hs : Sobol.new skip false = .ok s)
    (ds : List (RealDim ℝ)) (hne : ds ≠ []) (h40 : ds.length ≤ 40) (hd : ∀ d ∈ ds, PlainReal d) (n : Nat)
    (shift : List ℝ) (hn : 1 ≤ n) (hmax : skip + n ≤ 2 ^ 30 - 1) (hbud : skip ≠ 0 → n ≤ skip) (m T : Nat)
    (hT : T = ∑ r ∈ Finset.range ds.length, (sobolDegree r - 1)) (h30 : ds.length * m + T ≤ 30) :
    ∃ pts, (s.generate exact Int.fract (ds.map Dim.real) n shift).2.2 = .ok pts ∧ pts.length = n ∧
      ∀ box, BoxOf ds box → |(spaceRegionCount box pts : ℝ) - n * spaceShare ds box| ≤
        2 ^ T * (2 * m + 1) ^ ds.length + 2 * ds.length * n / 2 ^ m := by
  obtain ⟨hgen, hM⟩ := sobol_generate_rows skip s hs ds hne hd h40 n shift hn hmax hbud
  set M := (List.range n).map fun i => sobolVec exact ds.length (skip + i) with hMdef
  have hlen : M.length = n := by simp [hMdef]
  have hrow : ∀ r ∈ M, r.length = ds.length := fun r hr => (hM r hr).1
  refine ⟨_, hgen, by simpa using hlen, fun box hbox => ?_⟩
  have hbl : box.length = ds.length := (List.Forall₂.length_eq hbox).symm
  rw [spaceRegionCount_cube hd hrow box hbl, ← regionVolume_unit]
  have key := region_discrepancy (List.replicate ds.length (2, m)) (by
      intro g hg
      rw [List.eq_of_mem_replicate hg]
      norm_num) M (by simpa using hrow) (2 ^ T) (by positivity) (by
      intro cells hc
      have hcl : cells.length = ds.length := by simpa using List.Forall₂.length_eq hc
      have hcell : ∀ r, ∃ k, ∀ (h : r < cells.length), k ≤ m ∧ cells[r].1 = 2 ^ k ∧ cells[r].2 < cells[r].1 := by
        intro r
        by_cases h : r < cells.length
        · have := List.Forall₂.get hc h (by simp; omega)
          simp only [List.get_eq_getElem, List.getElem_replicate] at this
          obtain ⟨⟨k, hk, e⟩, h2⟩ := this
          exact ⟨k, fun _ => ⟨hk, e, h2⟩⟩
        · exact ⟨0, fun h' => absurd h' h⟩
      choose k hk using hcell
      set y : Nat → Nat := fun r => (cells[r]?.getD (0, 0)).2 with hy
      have hcells : cells = (List.range ds.length).map fun r => (2 ^ k r, y r) := by
        refine List.ext_getElem (by simp [hcl]) fun i h1 h2 => ?_
        simp only [List.getElem_map, List.getElem_range, hy, List.getElem?_eq_getElem h1, Option.getD_some]
        exact Prod.ext (hk i h1).2.1 rfl
      have hyk : ∀ r < ds.length, y r < 2 ^ k r := by
        intro r hr
        have h1 : r < cells.length := by omega
        simp only [hy, List.getElem?_eq_getElem h1, Option.getD_some]
        rw [← (hk r h1).2.1]
        exact (hk r h1).2.2
      set t := ∑ r ∈ (Finset.range ds.length).filter (fun r => k r ≠ 0), (sobolDegree r - 1) with ht
      have htT : t ≤ T := by
        rw [hT, ht]
        exact Finset.sum_le_sum_of_subset (Finset.filter_subset _ _)
      have hsum : ∑ r ∈ Finset.range ds.length, k r ≤ ds.length * m := by
        have := Finset.sum_le_card_nsmul (Finset.range ds.length) k m fun r hr =>
          (hk r (by rw [Finset.mem_range] at hr; omega)).1
        simpa using this
      obtain ⟨pts, p1, p2, p3, p4⟩ := C105_sobol_boxes skip s hs ds hne h40 hd n shift hn hmax hbud k y hyk _ t ht rfl
        (by omega)
      rw [hgen] at p1
      injection p1 with p1
      subst p1
      rw [← hcells, spaceBoxCount_cube hd hrow] at p3 p4
      have hprod : (cells.map Prod.fst).prod = 2 ^ ∑ r ∈ Finset.range ds.length, k r := by
        rw [hcells, List.map_map, ← Finset.prod_pow_eq_pow_sum, Finset.prod_range]
        rw [← List.prod_ofFn]
        congr 1
        refine List.ext_getElem (by simp) fun i h1 h2 => by simp
      rw [hlen, hprod]
      set S := ∑ r ∈ Finset.range ds.length, k r
      have hKpos : 0 < 2 ^ (S + t) := by positivity
      have htpos : (0 : ℝ) < 2 ^ t := by positivity
      have hdm := Nat.div_add_mod n (2 ^ (S + t))
      have hr := Nat.mod_lt n hKpos
      have w := window_error n (2 ^ (S + t)) (n / 2 ^ (S + t)) hKpos le_rfl (Nat.div_le_div_right (by omega))
      have w' := window_error n (2 ^ (S + t)) ((n + 2 ^ (S + t) - 1) / 2 ^ (S + t)) hKpos (Nat.div_le_div_right (by omega)) le_rfl
      have q3 : ((n / 2 ^ (S + t) : Nat) : ℝ) * 2 ^ t ≤ boxCount cells M := by exact_mod_cast p3
      have q4 : (boxCount cells M : ℝ) ≤ (((n + 2 ^ (S + t) - 1) / 2 ^ (S + t) : Nat) : ℝ) * 2 ^ t := by exact_mod_cast p4
      have e : (n : ℝ) / ((2 ^ S : Nat) : ℝ) = n / ((2 ^ (S + t) : Nat) : ℝ) * 2 ^ t := by
        push_cast
        rw [pow_add]
        field_simp
      rw [abs_le] at w w'
      have l1 : ((n : ℝ) / ((2 ^ (S + t) : Nat) : ℝ) - 1) * 2 ^ t ≤ ((n / 2 ^ (S + t) : Nat) : ℝ) * 2 ^ t :=
        mul_le_mul_of_nonneg_right (by linarith) htpos.le
      have l2 : (((n + 2 ^ (S + t) - 1) / 2 ^ (S + t) : Nat) : ℝ) * 2 ^ t ≤ ((n : ℝ) / ((2 ^ (S + t) : Nat) : ℝ) + 1) * 2 ^ t :=
        mul_le_mul_of_nonneg_right (by linarith) htpos.le
      have l3 : (2 : ℝ) ^ t ≤ 2 ^ T := pow_le_pow_right₀ (by norm_num) htT
      rw [e, abs_le]
      constructor <;> nlinarith) _ (by simp [hbl]) (unit_box hd hbox)
  rw [hlen] at key
  refine key.trans (le_of_eq ?_)
  unfold strataBound
  rw [List.map_replicate, List.map_replicate, List.prod_replicate, List.sum_replicate]
  push_cast
  simp only [nsmul_eq_mul]
  ring

/-- Two dimensions (`T = 0`), a million points, `m = 10`: the error is at most 441 + 3906.25.  Meets the hypotheses of
`C115_sobol`. -/
example : ∃ pts, (({ skip := 0, randomize := false } : Sobol).generate exact Int.fract
      ([⟨-5, 10, .uniform, 10, .identity, none, id⟩, ⟨0, 15, .uniform, 10, .normalize, none, id⟩].map Dim.real) 1000000 []).2.2
        = .ok pts ∧
    |(spaceRegionCount [(-5, 5), (2, 7)] pts : ℝ) - 1000000 * (2 / 9)| ≤ 4348 := by
  obtain ⟨pts, h1, -, h3⟩ := C115_sobol 0 { skip := 0, randomize := false } rfl [⟨-5, 10, .uniform, 10, .identity, none, id⟩,
      ⟨0, 15, .uniform, 10, .normalize, none, id⟩] (by simp) (by simp) (by
    intro d hd
    rcases List.mem_cons.1 hd with rfl | hd
    · exact ⟨by norm_num, rfl, rfl, Or.inl rfl⟩
    · rw [List.mem_singleton.1 hd]
      exact ⟨by norm_num, rfl, rfl, Or.inr rfl⟩) 1000000 [] (by norm_num) (by norm_num) (by simp) 10 0 (by decide) (by decide)
  refine ⟨pts, h1, ?_⟩
  have := h3 [(-5, 5), (2, 7)] (.cons ⟨by norm_num, by norm_num, by norm_num⟩ (.cons ⟨by norm_num, by norm_num, by norm_num⟩ .nil))
  have e : spaceShare [⟨-5, 10, .uniform, 10, .identity, none, id⟩, ⟨0, 15, .uniform, 10, .normalize, none, id⟩]
      [(-5, 5), (2, 7)] = 2 / 9 := by norm_num [spaceShare]
  rw [e] at this
  refine (by simpa using this : _ ≤ _).trans ?_
  norm_num

end Skopt
