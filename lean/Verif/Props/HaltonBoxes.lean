import Verif.Props.Halton
import Verif.Lemmas.UnitCube
import Mathlib.Data.Nat.ChineseRemainder
import Mathlib.Data.Int.CardIntervalMod

/-!
# C97: Halton designs fill boxes evenly

The reason to use a Halton design is that it fills the cube evenly, not only every coordinate on its
own (C20).  Here: cut the cube into equal boxes, coordinate `d` into a power of the `d`-th base many
parts.  With any number of points and any skip no two boxes differ by more than one point.
-/

namespace Skopt

/-- `p` lies in the box that consists, in coordinate `d`, of stratum `cells[d].2` of `cells[d].1`. -/
def InCell (cells : List (Nat × Nat)) (p : List ℝ) : Prop :=
  List.Forall₂ (fun (c : Nat × Nat) (x : ℝ) => InStratum c.1 c.2 x) cells p

open Classical in
/-- How many rows of the matrix lie in the box. -/
noncomputable def boxCount (cells : List (Nat × Nat)) (M : List (List ℝ)) : Nat :=
  (M.filter fun p => decide (InCell cells p)).length

/-- The box belongs to a partition of the cube into equal boxes, coordinate `d` being cut into a power
of the `d`-th base many parts. -/
def BaseBox (cells : List (Nat × Nat)) (bases : List Nat) : Prop :=
  List.Forall₂ (fun (c : Nat × Nat) (b : Nat) => (∃ k, c.1 = b ^ k) ∧ c.2 < c.1) cells bases

/-- Being in a stratum is a congruence of the index. -/
theorem radicalInverse_congruence {b : Nat} (hb : 1 < b) (k j : Nat) (hj : j < b ^ k) :
    ∃ v, ∀ i, InStratum (b ^ k) j (radicalInverse b i) ↔ i ≡ v [MOD b ^ k] := by
  have hpos : 0 < b ^ k := by positivity
  have hposR : (0 : ℝ) < ((b ^ k : Nat) : ℝ) := by exact_mod_cast hpos
  obtain ⟨v, ⟨-, -, hv⟩, -⟩ := radicalInverse_stratified hb k 0 j hj
  have same : ∀ i i', InStratum (b ^ k) j (radicalInverse b i) →
      InStratum (b ^ k) j (radicalInverse b i') → i ≡ i' [MOD b ^ k] := by
    intro i i' h h'
    refine revDigits_inj hb k i i' ?_
    have key : ∀ i, InStratum (b ^ k) j (radicalInverse b i) → revDigits b k i = j := by
      intro i ⟨h1, h2⟩
      obtain ⟨a1, a2⟩ := radicalInverse_stratum hb k i
      rw [div_le_iff₀ hposR] at h1
      rw [lt_div_iff₀ hposR] at h2
      push_cast at h1 h2
      have c1 : (j : ℝ) < revDigits b k i + 1 := by linarith
      have c2 : (revDigits b k i : ℝ) < j + 1 := by linarith
      have c1' : j < revDigits b k i + 1 := by exact_mod_cast c1
      have c2' : revDigits b k i < j + 1 := by exact_mod_cast c2
      omega
    rw [key i h, key i' h']
  refine ⟨v, fun i => ⟨fun h => same i v h hv, fun h => ?_⟩⟩
  obtain ⟨t, ⟨h1, h2, h3⟩, -⟩ := radicalInverse_stratified hb k i j hj
  have ht : t ≡ i [MOD b ^ k] := (same t v h3 hv).trans h.symm
  have : t = i := by
    have hd : b ^ k ∣ t - i := (Nat.modEq_iff_dvd' h1).1 ht.symm
    have := Nat.eq_zero_of_dvd_of_lt hd (by omega)
    omega
  exact this ▸ h3

/-- Being in a box is a congruence of the index, modulo the number of boxes. -/
theorem box_congruence : ∀ (bs : List Nat) (cells : List (Nat × Nat)), (∀ b ∈ bs, 1 < b) →
    bs.Pairwise Nat.Coprime → BaseBox cells bs →
    ∃ v, ∀ i, InCell cells (bs.map fun b => radicalInverse b i) ↔
      i ≡ v [MOD (cells.map Prod.fst).prod] := by
  intro bs
  induction bs with
  | nil =>
    intro cells _ _ hc
    cases hc
    exact ⟨0, fun i => by simp [InCell, Nat.modEq_one]⟩
  | cons b bs ih =>
    intro cells hb hco hc
    unfold BaseBox at hc
    obtain ⟨⟨n, j⟩, cs, ⟨⟨k, hk⟩, hj⟩, hcs, rfl⟩ := List.forall₂_cons_right_iff.1 hc
    simp only at hk hj
    subst hk
    rw [List.pairwise_cons] at hco
    obtain ⟨v, hv⟩ := ih cs (fun b' h' => hb b' (by simp [h'])) hco.2 hcs
    obtain ⟨w, hw⟩ := radicalInverse_congruence (hb b (by simp)) k j hj
    have hcop : Nat.Coprime (b ^ k) (cs.map Prod.fst).prod := by
      rw [Nat.coprime_list_prod_right_iff]
      intro n hn
      obtain ⟨c, hc, rfl⟩ := List.mem_map.1 hn
      obtain ⟨b', hb', ⟨k', hk'⟩, -⟩ : ∃ b' ∈ bs, (∃ k, c.1 = b' ^ k) ∧ c.2 < c.1 := by
        obtain ⟨i, hi, rfl⟩ := List.mem_iff_getElem.1 hc
        have hl := List.Forall₂.length_eq hcs
        exact ⟨bs[i], List.getElem_mem (by omega), List.Forall₂.get hcs hi (by omega)⟩
      rw [hk']
      exact Nat.Coprime.pow _ _ (hco.1 b' hb')
    obtain ⟨u, hu1, hu2⟩ := Nat.chineseRemainder hcop w v
    refine ⟨u, fun i => ?_⟩
    have e : InCell ((b ^ k, j) :: cs) ((b :: bs).map fun b => radicalInverse b i) ↔
        InStratum (b ^ k) j (radicalInverse b i) ∧ InCell cs (bs.map fun b => radicalInverse b i) := by
      unfold InCell
      rw [List.map_cons, List.forall₂_cons]
    rw [e, hw, hv, List.map_cons, List.prod_cons, ← Nat.modEq_and_modEq_iff_modEq_mul hcop]
    constructor
    · rintro ⟨h1, h2⟩
      exact ⟨h1.trans hu1.symm, h2.trans hu2.symm⟩
    · rintro ⟨h1, h2⟩
      exact ⟨h1.trans hu1, h2.trans hu2⟩

theorem countP_range (p : Nat → Prop) [DecidablePred p] (m : Nat) :
    ((List.range m).filter fun i => decide (p i)).length = Nat.count p m := by
  induction m with
  | zero => rfl
  | succ m ih => rw [List.range_succ, List.filter_append, List.length_append, ih, Nat.count_succ]; by_cases h : p m <;> simp [h]

/-- `m` consecutive numbers meet a residue class `m / r` times, rounded down or up. -/
theorem count_window (r v s m : Nat) (hr : 0 < r) :
    m / r ≤ Nat.count (fun i => i + s ≡ v [MOD r]) m ∧
    Nat.count (fun i => i + s ≡ v [MOD r]) m ≤ (m + r - 1) / r := by
  have e : (fun i => i + s ≡ v [MOD r]) = fun i => i ≡ v + (r - s % r) [MOD r] := by
    funext i
    have hs : s + (r - s % r) ≡ 0 [MOD r] := by
      have : s + (r - s % r) = r * (s / r + 1) := by
        have h1 := Nat.div_add_mod s r
        have h2 := Nat.mod_lt s hr
        rw [Nat.mul_add]
        omega
      rw [this]
      exact (Nat.modEq_zero_iff_dvd).2 (Dvd.intro _ rfl)
    refine propext ⟨fun h => ?_, fun h => ?_⟩
    · have h' := h.add_right (r - s % r)
      rw [Nat.add_assoc] at h'
      have := (Nat.ModEq.add_left i hs)
      exact (this.symm.trans h')
    · have h' := h.add_right s
      refine h'.trans ?_
      rw [Nat.add_assoc, Nat.add_comm (r - s % r) s]
      exact Nat.ModEq.add_left v hs
  have : ∀ v, Nat.count (fun i => i ≡ v [MOD r]) m = m / r + if v % r < m % r then 1 else 0 :=
    fun v => Nat.count_modEq_card _ hr _
  simp only [e]
  rw [this]
  refine ⟨Nat.le_add_right _ _, ?_⟩
  split
  · rename_i h
    have h1 : 0 < m % r := by omega
    have h2 := Nat.div_add_mod m r
    rw [Nat.le_div_iff_mul_le hr]
    have : (m / r + 1) * r = r * (m / r) + r := by ring
    omega
  · exact Nat.div_le_div_right (by omega)

/-- **C97.** Cut the cube into equal boxes, coordinate `d` into a power of the `d`-th base many parts,
the bases being pairwise coprime.  In exact arithmetic, whatever the number `m` of points and whatever
the skip, every box holds the proportional number of points, rounded down or up. -/
theorem C97_halton_boxes (h : Halton) (n m : Nat) (draw : ℤ) (hn : 0 < n) (hb : GoodBases h n)
    (hs : GoodSkip h draw) (bs : List Nat) (hbs : h.bases n = .ok bs) (hco : bs.Pairwise Nat.Coprime)
    (cells : List (Nat × Nat)) (hc : BaseBox cells bs) :
    ∃ M, h.unit exact n m draw = .ok M ∧ M.length = m ∧
      m / (cells.map Prod.fst).prod ≤ boxCount cells M ∧
      boxCount cells M ≤ (m + (cells.map Prod.fst).prod - 1) / (cells.map Prod.fst).prod := by
  obtain ⟨bs', s, h1, _, hl, hb1, hu⟩ := Halton.unit_spec hn hb hs m
  rw [hbs] at h1
  injection h1 with h1
  subst h1
  obtain ⟨v, hv⟩ := box_congruence bs cells hb1 hco hc
  have hpos : 0 < (cells.map Prod.fst).prod := by
    refine List.prod_pos ?_
    intro x hx
    obtain ⟨c, hcm, rfl⟩ := List.mem_map.1 hx
    obtain ⟨i, hi, rfl⟩ := List.mem_iff_getElem.1 hcm
    have := (List.Forall₂.get hc hi (by have := List.Forall₂.length_eq hc; omega)).2
    simp only [List.get_eq_getElem] at this
    omega
  refine ⟨_, hu, by simp, ?_⟩
  have e : boxCount cells ((List.range m).map fun i => bs.map fun b => radicalInverse b (i + s)) =
      Nat.count (fun i => i + s ≡ v [MOD (cells.map Prod.fst).prod]) m := by
    rw [← countP_range]
    unfold boxCount
    rw [List.filter_map, List.length_map]
    congr 1
    refine List.filter_congr fun i _ => ?_
    simp only [Function.comp_apply]
    rw [decide_eq_decide]
    exact hv (i + s)
  rw [e]
  exact count_window _ v s m hpos

theorem primes_coprime (n : Nat) : ((List.range n).map (Nat.nth Nat.Prime)).Pairwise Nat.Coprime := by
  rw [List.pairwise_map]
  refine List.Pairwise.imp (fun {a b} hab => ?_) List.nodup_range
  refine (Nat.coprime_primes (Nat.prime_nth_prime a) (Nat.prime_nth_prime b)).2 fun e => hab ?_
  exact Nat.nth_injective Nat.infinite_setOfPred_prime e

/-- **C97**, for the bases the generator chooses itself: they are the first primes, so the claim
holds in any number of dimensions. -/
theorem C97_halton_default (h : Halton) (n m : Nat) (draw : ℤ) (hn : 0 < n) (hp : h.primes = none)
    (hs : GoodSkip h draw) (cells : List (Nat × Nat))
    (hc : BaseBox cells ((List.range n).map (Nat.nth Nat.Prime))) :
    ∃ M, h.unit exact n m draw = .ok M ∧ M.length = m ∧
      m / (cells.map Prod.fst).prod ≤ boxCount cells M ∧
      boxCount cells M ≤ (m + (cells.map Prod.fst).prod - 1) / (cells.map Prod.fst).prod :=
  C97_halton_boxes h n m draw hn (Or.inl hp) hs _ (Halton.bases_none hp hn) (primes_coprime n) cells hc

/-- Two dimensions, bases 2 and 3, twelve boxes of 1/4 × 1/3: the box `[2/4, 3/4) × [1/3, 2/3)`.
Meets the hypotheses of `C97_halton_boxes`. -/
example : BaseBox [(4, 2), (3, 1)] [2, 3] ∧ ([2, 3] : List Nat).Pairwise Nat.Coprime ∧
    GoodBases { primes := some [2, 3] } 2 ∧ GoodSkip { primes := some [2, 3] } 0 ∧
    ({ primes := some [2, 3] } : Halton).bases 2 = .ok [2, 3] := by
  refine ⟨List.Forall₂.cons ⟨⟨2, rfl⟩, by norm_num⟩ (List.Forall₂.cons ⟨⟨1, rfl⟩, by norm_num⟩ List.Forall₂.nil), by decide,
    Or.inr ⟨_, rfl, rfl, by decide⟩, Or.inl ⟨le_rfl, rfl⟩, rfl⟩

open Classical in
/-- How many of the points lie in the box of the space that corresponds to the box of the unit cube:
coordinate `d` lies in stratum `cells[d].2` of `cells[d].1` equal parts of `[low, high)`. -/
noncomputable def spaceBoxCount (ds : List (RealDim ℝ)) (cells : List (Nat × Nat)) (pts : List (Point ℝ)) : Nat :=
  (pts.filter fun p => decide (∃ xs : List ℝ, p = xs.map Val.num ∧
    InCell cells (List.zipWith (fun d x => (x - d.low) / (d.high - d.low)) ds xs))).length

theorem uncube : ∀ (ds : List (RealDim ℝ)) (r : List ℝ), (∀ d ∈ ds, PlainReal d) → r.length = ds.length →
    List.zipWith (fun d x => (x - d.low) / (d.high - d.low)) ds (cubePoint ds r) = r
  | [], r, _, hl => by
      have : r = [] := List.length_eq_zero_iff.1 (by simpa using hl)
      subst this
      rfl
  | d :: ds, [], _, hl => by simp at hl
  | d :: ds, u :: r, hd, hl => by
      have ih := uncube ds r (fun x hx => hd x (by simp [hx])) (by simpa using hl)
      have h1 : d.high - d.low ≠ 0 := sub_ne_zero.2 (hd d (by simp)).1.ne'
      unfold cubePoint at ih ⊢
      rw [List.zipWith_cons_cons, List.zipWith_cons_cons, ih]
      congr 1
      rw [add_sub_cancel_right, mul_div_assoc, div_self h1, mul_one]

theorem map_num_inj {xs ys : List ℝ} (h : xs.map (Val.num : ℝ → Val ℝ) = ys.map Val.num) : xs = ys := by
  refine List.map_injective_iff.2 ?_ h
  intro a b e
  injection e

/-- Counting in the space is counting in the cube. -/
theorem spaceBoxCount_cube {ds : List (RealDim ℝ)} (hd : ∀ d ∈ ds, PlainReal d) {M : List (List ℝ)}
    (hl : ∀ r ∈ M, r.length = ds.length) (cells : List (Nat × Nat)) :
    spaceBoxCount ds cells (M.map fun r => (cubePoint ds r).map Val.num) = boxCount cells M := by
  unfold spaceBoxCount boxCount
  rw [List.filter_map, List.length_map]
  congr 1
  refine List.filter_congr fun r hr => ?_
  simp only [Function.comp_apply]
  rw [decide_eq_decide]
  constructor
  · rintro ⟨xs, e, h⟩
    rw [← map_num_inj e, uncube ds r hd (hl r hr)] at h
    exact h
  · intro h
    exact ⟨_, rfl, by rw [uncube ds r hd (hl r hr)]; exact h⟩

/-- **C97**, for `Halton().generate`: in a space of uniform `Real` dimensions, `n` of them, the points
returned fill the boxes of the space evenly. -/
theorem C97_halton_space (h : Halton) (ds : List (RealDim ℝ)) (m : Nat) (draw : ℤ) (hne : ds ≠ [])
    (hd : ∀ d ∈ ds, PlainReal d) (hp : h.primes = none) (hs : GoodSkip h draw) (hm : 0 < m)
    (cells : List (Nat × Nat)) (hc : BaseBox cells ((List.range ds.length).map (Nat.nth Nat.Prime))) :
    ∃ pts, (h.generate exact (ds.map Dim.real) m draw).2 = .ok pts ∧ pts.length = m ∧
      m / (cells.map Prod.fst).prod ≤ spaceBoxCount ds cells pts ∧
      spaceBoxCount ds cells pts ≤ (m + (cells.map Prod.fst).prod - 1) / (cells.map Prod.fst).prod := by
  have hpos : 0 < ds.length := List.length_pos_iff.2 hne
  obtain ⟨M, h1, h2, h3⟩ := C97_halton_default h ds.length m draw hpos hp hs cells hc
  obtain ⟨bs, s, _, _, hl, hb1, hu⟩ := Halton.unit_spec hpos (Or.inl hp) hs m
  have hM : M = (List.range m).map fun i => bs.map fun b => radicalInverse b (i + s) := by
    rw [hu] at h1; injection h1 with h1; exact h1.symm
  have hlen : ∀ r ∈ M, r.length = ds.length := by
    rw [hM]
    intro r hr
    obtain ⟨i, _, rfl⟩ := List.mem_map.1 hr
    simpa using hl
  have hunit : ∀ r ∈ M, ∀ x ∈ r, 0 ≤ x ∧ x ≤ 1 := by
    rw [hM]
    intro r hr x hx
    obtain ⟨i, _, rfl⟩ := List.mem_map.1 hr
    obtain ⟨b, hbm, rfl⟩ := List.mem_map.1 hx
    have := radicalInverse_range (hb1 b hbm) (i + s)
    exact ⟨this.1, this.2.le⟩
  have hMne : M ≠ [] := by rintro rfl; simp at h2; omega
  refine ⟨M.map fun r => (cubePoint ds r).map Val.num, ?_, by simpa using h2, ?_⟩
  · unfold Halton.generate
    rw [withNormalized_snd _ fun d hd' => by
      obtain ⟨d', h', rfl⟩ := List.mem_map.1 hd'
      exact (hd d' h').valid.legalTransform]
    simp only [List.length_map]
    rw [h1, ok_bind, inverse_cube hne hd hMne hlen hunit]
  · rw [spaceBoxCount_cube hd hlen]
    exact h3

/-- Two dimensions, `Real(-5, 10)` and `Real(0, 15)`. -/
example : ∀ d ∈ ([⟨-5, 10, .uniform, 10, .identity, none, id⟩, ⟨0, 15, .uniform, 10, .normalize, none, id⟩] :
    List (RealDim ℝ)), PlainReal d := by
  intro d hd
  rcases List.mem_cons.1 hd with rfl | hd
  · exact ⟨by norm_num, rfl, rfl, Or.inl rfl⟩
  · rw [List.mem_singleton.1 hd]
    exact ⟨by norm_num, rfl, rfl, Or.inr rfl⟩

/-! ## Hammersly -/

/-- The points of a Hammersly design. -/
theorem Hammersly.unit_rows {h : Halton} {n m : Nat} {draw : ℤ} (hn : 2 ≤ n) (hb : GoodBases h (n - 1))
    (hs : GoodSkip h draw) (hm : 0 < m) {bs : List Nat} (hbs : h.bases (n - 1) = .ok bs) :
    ∃ s : Nat, Hammersly.unit exact h n m draw =
      .ok ((List.range m).map fun i => (bs.map fun b => radicalInverse b (i + s)) ++ [(i : ℝ) / m]) := by
  obtain ⟨bs', s, h1, _, hl, hb1, hu⟩ := Halton.unit_spec (n := n - 1) (by omega) hb hs m
  rw [hbs] at h1
  injection h1 with h1
  subst h1
  let d0 : RealDim ℝ := ⟨exact.ofInt 0, exact.ofInt 1, .uniform, exact.ofInt 10, .identity, none, id⟩
  have hd0 : PlainReal d0 := ⟨by simp [d0, exact], rfl, rfl, Or.inl rfl⟩
  have hds : ∀ d ∈ List.replicate (n - 1) d0, PlainReal d := fun d hd => by
    rw [List.eq_of_mem_replicate hd]; exact hd0
  have hrep : List.replicate (n - 1) (unitReal exact) = (List.replicate (n - 1) d0).map Dim.real := by
    rw [List.map_replicate]; rfl
  have hcube : ∀ (k : Nat) (r : List ℝ), r.length = k → cubePoint (List.replicate k d0) r = r := by
    intro k
    induction k with
    | zero =>
      intro r hr
      have : r = [] := List.length_eq_zero_iff.1 hr
      subst this; rfl
    | succ k ih =>
      intro r hr
      cases r with
      | nil => simp at hr
      | cons u r =>
        have := ih r (by simpa using hr)
        unfold cubePoint at this ⊢
        rw [List.replicate_succ, List.zipWith_cons_cons, this]
        simp [d0, exact]
  have hlen : ∀ r ∈ (List.range m).map fun i => bs.map fun b => radicalInverse b (i + s), r.length = n - 1 := by
    intro r hr
    obtain ⟨i, _, rfl⟩ := List.mem_map.1 hr
    simpa using hl
  have hunit : ∀ r ∈ (List.range m).map fun i => bs.map fun b => radicalInverse b (i + s),
      ∀ x ∈ r, 0 ≤ x ∧ x ≤ 1 := by
    intro r hr x hx
    obtain ⟨i, _, rfl⟩ := List.mem_map.1 hr
    obtain ⟨b, hbm, rfl⟩ := List.mem_map.1 hx
    have := radicalInverse_range (hb1 b hbm) (i + s)
    exact ⟨this.1, this.2.le⟩
  have hne : List.replicate (n - 1) d0 ≠ [] := by
    intro h0
    have := congrArg List.length h0
    simp at this
    omega
  have hMne : ((List.range m).map fun i => bs.map fun b => radicalInverse b (i + s)) ≠ [] := by
    intro h0
    have := congrArg List.length h0
    simp at this
    omega
  refine ⟨s, ?_⟩
  unfold Hammersly.unit Halton.generate
  rw [hrep, withNormalized_snd _ fun d hd' => by
      obtain ⟨d', h', rfl⟩ := List.mem_map.1 hd'
      exact (hds d' h').valid.legalTransform]
  simp only [List.length_map, List.length_replicate]
  rw [hu, ok_bind, inverse_cube hne hds hMne (by simpa using hlen) hunit, ok_bind]
  have e1 : ((List.range m).map fun i => bs.map fun b => radicalInverse b (i + s)).map
      (fun r => (cubePoint (List.replicate (n - 1) d0) r).map (Val.num : ℝ → Val ℝ)) =
      ((List.range m).map fun i => bs.map fun b => radicalInverse b (i + s)).map
      (fun r => r.map (Val.num : ℝ → Val ℝ)) :=
    List.map_congr_left fun r hr => by rw [hcube _ r (hlen r hr)]
  have e2 : mapE (fun p => mapE Val.toNum p)
      (((List.range m).map fun i => bs.map fun b => radicalInverse b (i + s)).map
        (fun r => r.map (Val.num : ℝ → Val ℝ))) =
      .ok (((List.range m).map fun i => bs.map fun b => radicalInverse b (i + s)).map id) := by
    rw [mapE_map]
    exact mapE_ok_of_forall fun r _ => mapE_toNum_map r
  rw [e1, e2, ok_bind, List.map_id]
  congr 1
  refine List.ext_getElem (by simp) fun i hi1 hi2 => ?_
  simp only [List.getElem_zipWith, List.getElem_map, List.getElem_range]
  congr 2
  simp [linspaceAt, exact, div_eq_mul_inv]

theorem count_same {p q : Nat → Prop} [DecidablePred p] [DecidablePred q] :
    ∀ (m : Nat), (∀ i < m, (p i ↔ q i)) → Nat.count p m = Nat.count q m
  | 0, _ => by rw [Nat.count_zero, Nat.count_zero]
  | m + 1, h => by
      rw [Nat.count_succ, Nat.count_succ, count_same m fun i hi => h i (by omega)]
      by_cases hp : p m
      · rw [if_pos hp, if_pos ((h m (by omega)).1 hp)]
      · rw [if_neg hp, if_neg fun hq => hp ((h m (by omega)).2 hq)]

theorem count_none {p : Nat → Prop} [DecidablePred p] (m : Nat) (h : ∀ i < m, ¬ p i) : Nat.count p m = 0 := by
  induction m with
  | zero => exact Nat.count_zero p
  | succ m ih => rw [Nat.count_succ, ih fun i hi => h i (by omega), if_neg (h m (by omega))]

theorem inCell_snoc {c : Nat × Nat} {x : ℝ} : ∀ (cells : List (Nat × Nat)) (p : List ℝ), cells.length = p.length →
    (InCell (cells ++ [c]) (p ++ [x]) ↔ InCell cells p ∧ InStratum c.1 c.2 x)
  | [], [], _ => by simp [InCell]
  | [], _ :: _, h => by simp at h
  | _ :: _, [], h => by simp at h
  | d :: ds, y :: ys, h => by
      have ih := inCell_snoc (c := c) (x := x) ds ys (by simpa using h)
      unfold InCell at ih ⊢
      rw [List.cons_append, List.cons_append, List.forall₂_cons, List.forall₂_cons, ih, and_assoc]

/-- Counting a residue class in a window that is cut out of a range. -/
theorem count_slab (p : Nat → Prop) [DecidablePred p] (a P : Nat) (m : Nat) (h : a + P ≤ m) :
    Nat.count (fun i => p i ∧ a ≤ i ∧ i < a + P) m = Nat.count (fun i => p (i + a)) P := by
  obtain ⟨t, rfl⟩ := Nat.exists_eq_add_of_le h
  have h1 : Nat.count (fun i => p i ∧ a ≤ i ∧ i < a + P) a = 0 := by
    refine count_none _ ?_
    rintro i hi ⟨-, h, -⟩
    omega
  rw [Nat.count_add, Nat.count_add, h1, Nat.zero_add]
  have h2 : Nat.count (fun k => p (a + P + k) ∧ a ≤ a + P + k ∧ a + P + k < a + P) t = 0 := by
    refine count_none _ ?_
    rintro i hi ⟨-, -, h⟩
    omega
  rw [h2, Nat.add_zero]
  refine count_same _ ?_
  intro i hi
  rw [Nat.add_comm i a]
  constructor
  · exact fun h => h.1
  · exact fun h => ⟨h, by omega, by omega⟩

/-- **C97 (Hammersly).** In two or more dimensions the last coordinate runs through the multiples of `1/m`
and the others are a Halton design.  Cut the last coordinate into `q` parts and the others as for
Halton, `P` boxes: when `m = c · P · q`, every one of the `P · q` boxes holds exactly `c` points. -/
theorem C97_hammersly_boxes (h : Halton) (n : Nat) (draw : ℤ) (hn : 2 ≤ n) (hb : GoodBases h (n - 1))
    (hs : GoodSkip h draw) (bs : List Nat) (hbs : h.bases (n - 1) = .ok bs)
    (hco : bs.Pairwise Nat.Coprime) (cells : List (Nat × Nat)) (hc : BaseBox cells bs)
    (q a c : Nat) (ha : a < q) (hcpos : 0 < c) :
    ∃ M, Hammersly.unit exact h n (c * (cells.map Prod.fst).prod * q) draw = .ok M ∧
      M.length = c * (cells.map Prod.fst).prod * q ∧ boxCount (cells ++ [(q, a)]) M = c := by
  have hb1 : ∀ b ∈ bs, 1 < b := by
    obtain ⟨bs', h1, _, h2⟩ := hb.bases (by omega)
    rw [hbs] at h1
    injection h1 with h1
    subst h1
    exact h2
  obtain ⟨v, hv⟩ := box_congruence bs cells hb1 hco hc
  have hpos : 0 < (cells.map Prod.fst).prod := by
    refine List.prod_pos ?_
    intro x hx
    obtain ⟨c, hcm, rfl⟩ := List.mem_map.1 hx
    obtain ⟨i, hi, rfl⟩ := List.mem_iff_getElem.1 hcm
    have := (List.Forall₂.get hc hi (by have := List.Forall₂.length_eq hc; omega)).2
    simp only [List.get_eq_getElem] at this
    omega
  have hcl : cells.length = bs.length := List.Forall₂.length_eq hc
  generalize (cells.map Prod.fst).prod = P at *
  have hq : 0 < q := by omega
  have hm : 0 < c * P * q := by positivity
  obtain ⟨s, hu⟩ := Hammersly.unit_rows (m := c * P * q) hn hb hs hm hbs
  refine ⟨_, hu, by simp, ?_⟩
  have e : boxCount (cells ++ [(q, a)]) ((List.range (c * P * q)).map fun i =>
      (bs.map fun b => radicalInverse b (i + s)) ++ [(i : ℝ) / ((c * P * q : Nat) : ℝ)]) =
      Nat.count (fun i => (i + s ≡ v [MOD P]) ∧ a * (c * P) ≤ i ∧ i < a * (c * P) + c * P) (c * P * q) := by
    rw [← countP_range]
    unfold boxCount
    rw [List.filter_map, List.length_map]
    congr 1
    refine List.filter_congr fun i _ => ?_
    simp only [Function.comp_apply]
    rw [decide_eq_decide, ← hv (i + s)]
    rw [inCell_snoc cells _ (by simpa using hcl)]
    refine and_congr_right fun _ => ?_
    unfold InStratum
    have hqR : (0 : ℝ) < q := by exact_mod_cast hq
    have hmR : (0 : ℝ) < ((c * P * q : Nat) : ℝ) := by exact_mod_cast hm
    rw [div_le_div_iff₀ hqR hmR, div_lt_div_iff₀ hmR hqR]
    have l1 : (a : ℝ) * ((c * P * q : Nat) : ℝ) ≤ i * q ↔ a * (c * P) ≤ i := by
      constructor
      · intro h
        have h' : a * (c * P * q) ≤ i * q := by exact_mod_cast h
        have h'' : (a * (c * P)) * q ≤ i * q := by rw [mul_assoc]; exact h'
        exact Nat.le_of_mul_le_mul_right h'' hq
      · intro h
        have h' : (a * (c * P)) * q ≤ i * q := Nat.mul_le_mul_right q h
        rw [mul_assoc] at h'
        exact_mod_cast h'
    have l2 : (i : ℝ) * q < ((a : ℝ) + 1) * ((c * P * q : Nat) : ℝ) ↔ i < a * (c * P) + c * P := by
      have e : ((a : ℝ) + 1) * ((c * P * q : Nat) : ℝ) = (((a * (c * P) + c * P) * q : Nat) : ℝ) := by
        push_cast; ring
      have e' : (i : ℝ) * q = ((i * q : Nat) : ℝ) := by push_cast; ring
      rw [e, e', Nat.cast_lt]
      exact Nat.mul_lt_mul_right hq
    rw [l1, l2]
  rw [e, count_slab _ _ _ _ (by
    have : (a + 1) * (c * P) ≤ q * (c * P) := Nat.mul_le_mul_right _ ha
    have e1 : (a + 1) * (c * P) = a * (c * P) + c * P := by ring
    have e2 : q * (c * P) = c * P * q := by ring
    omega)]
  have e3 : (fun i => i + a * (c * P) + s ≡ v [MOD P]) = fun i => i + (a * (c * P) + s) ≡ v [MOD P] := by
    funext i
    rw [Nat.add_assoc]
  have hw := count_window P v (a * (c * P) + s) (c * P) hpos
  rw [Nat.mul_div_cancel _ hpos] at hw
  have h4 : (c * P + P - 1) / P = c := by
    rw [show c * P + P - 1 = (P - 1) + c * P by omega, Nat.add_mul_div_right _ _ hpos,
      Nat.div_eq_of_lt (by omega), Nat.zero_add]
  rw [h4] at hw
  simp only [e3]
  omega

/-- Three dimensions, bases 2 and 3 for the first two, the box `[2/4, 3/4) × [1/3, 2/3) × [4/5, 1)` and
`2 · 12 · 5` points. -/
example : BaseBox [(4, 2), (3, 1)] [2, 3] ∧ ([2, 3] : List Nat).Pairwise Nat.Coprime ∧
    GoodBases { primes := some [2, 3] } (3 - 1) ∧ GoodSkip { primes := some [2, 3] } 0 ∧
    ({ primes := some [2, 3] } : Halton).bases (3 - 1) = .ok [2, 3] ∧ 4 < 5 ∧ 0 < 2 := by
  refine ⟨List.Forall₂.cons ⟨⟨2, rfl⟩, by norm_num⟩ (List.Forall₂.cons ⟨⟨1, rfl⟩, by norm_num⟩ List.Forall₂.nil), by decide,
    Or.inr ⟨_, rfl, rfl, by decide⟩, Or.inl ⟨le_rfl, rfl⟩, rfl, by norm_num, by norm_num⟩

/-- **C97 needs coprime bases**: with user-supplied bases 2 and 2 the four boxes of 1/2 × 1/2 share four
points two, none, none, two. -/
theorem C97_needs_coprime_bases :
    (({ primes := some [2, 2] } : Halton).unit ratArith 2 4 0) =
      .ok [[0, 0], [1/2, 1/2], [1/4, 1/4], [3/4, 3/4]] ∧
    ∃ M, ({ primes := some [2, 2] } : Halton).unit exact 2 4 0 = .ok M ∧
      BaseBox [(2, 0), (2, 1)] [2, 2] ∧ boxCount [(2, 0), (2, 1)] M = 0 := by
  refine ⟨by decide +kernel, ?_⟩
  obtain ⟨bs', s, h1, _, hl, hb1, hu⟩ := Halton.unit_spec (h := { primes := some [2, 2] }) (n := 2)
    (draw := 0) (by norm_num) (Or.inr ⟨_, rfl, rfl, by decide⟩) (Or.inl ⟨le_rfl, rfl⟩) 4
  have hbb : ({ primes := some [2, 2] } : Halton).bases 2 = .ok [2, 2] := rfl
  rw [hbb] at h1
  injection h1 with h1
  subst h1
  refine ⟨_, hu, List.Forall₂.cons ⟨⟨1, rfl⟩, by norm_num⟩ (List.Forall₂.cons ⟨⟨1, rfl⟩, by norm_num⟩ List.Forall₂.nil), ?_⟩
  unfold boxCount
  rw [List.length_eq_zero_iff, List.filter_eq_nil_iff]
  intro r hr
  obtain ⟨i, -, rfl⟩ := List.mem_map.1 hr
  intro hd
  have hd' := @of_decide_eq_true _ (Classical.propDecidable _) hd
  simp only [InCell, List.map_cons, List.map_nil, List.forall₂_cons] at hd'
  obtain ⟨⟨-, h2⟩, ⟨h3, -⟩, -⟩ := hd'
  norm_num at h2 h3
  linarith

end Skopt
