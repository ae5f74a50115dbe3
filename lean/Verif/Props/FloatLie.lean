import Verif.Props.FloatForest
import Verif.Props.FloatRuns
import Verif.Props.OptimizerCopy

/-!
# C153: the lies of `cl_mean` in floating-point arithmetic

`ask(n_points, strategy="cl_mean")` recomputes the lie in every round from a history that already holds the earlier lies.  In
exact arithmetic appending the mean leaves the mean as it is (C35), so the lie is constant.  With rounding it drifts.
-/

namespace Skopt

variable {p : ℕ} {F M R G : Type}

/-! ## Lemmas -/

theorem fltMean_fin (A : Arith F) {ys : List F} (hne : ys ≠ []) :
    fltMean A (ys.map Flt.fin) = .fin (forestMeanAt A ys) := by
  have key : ∀ (ys : List F) (a : F), (ys.map Flt.fin).foldl (fltAdd A) (.fin a) = .fin (ys.foldl A.add a) := by
    intro ys
    induction ys with
    | nil => intro a; rfl
    | cons y ys ih => intro a; exact ih _
  unfold fltMean forestMeanAt
  have he : (ys.map Flt.fin).isEmpty = false := by
    cases ys with
    | nil => exact absurd rfl hne
    | cons => rfl
  rw [he, if_neg (by simp), key, List.length_map]

/-- The lie of `cl_mean` outside the per-second modes. -/
theorem lie_mean [LinearOrder F] (A : Arith F) (W : World F M R G) {acq : AcqFunc} (hps : acq.isPs = false) {ys : List F}
    (hne : ys ≠ []) :
    lie A W acq .clMean (ys.map fun y => .num (.fin y)) = .ok (.num (.fin (forestMeanAt A ys))) := by
  rw [lie_scalar A W hps _ hne]
  simp only [Strategy.aggregate, ok_bind, fltMean_fin A hne]

/-- The lies of the loop: each is the computed mean of the history and the earlier lies. -/
theorem liarLoop_means [LinearOrder F] {A : Arith F} {W : World F M R G} {dims : List (Dim F)} {n : Nat} {o o' : Opt F M R}
    {X : List (Point F)} {ys : List F} (hne : ys ≠ []) (hps : o.cfg.acq.isPs = false)
    (hy : o.yi = ys.map fun y => .num (.fin y)) (h : liarLoop A W dims .clMean n o = (o', .ok X)) :
    ∃ ls : List F, ls.length = n ∧ o'.yi = o.yi ++ ls.map (fun y => .num (.fin y)) ∧
      ∀ (j : ℕ) (hj : j < ls.length), ls[j] = forestMeanAt A (ys ++ ls.take j) := by
  induction n generalizing o o' X ys with
  | zero =>
    simp only [liarLoop, Prod.mk.injEq, Except.ok.injEq] at h
    exact ⟨[], rfl, by simp [h.1], by simp⟩
  | succ n ih =>
    simp only [liarLoop] at h
    split at h
    · cases h
    · next o₁ x ha =>
      obtain ⟨r, hr⟩ := askOne_frame A W dims o
      rw [ha] at hr
      simp only at hr
      subst hr
      split at h
      · cases h
      · next l' hl' =>
        simp only at hl'
        rw [hy, lie_mean A W hps hne] at hl'
        injection hl' with hl'
        subst hl'
        split at h
        · cases h
        · next o₂ res ht =>
          set l : F := forestMeanAt A ys with hl
          have hrec : record { o with rng := r } (.lst x) (.num (.fin l)) =
              .ok (record.single { o with rng := r } x (.num (.fin l))) := by
            unfold record
            simp [hps, YArg.isSeq]
          have hf := tellCore_frame A W dims { o with rng := r } (.lst x) (.num (.fin l)) true hrec
          rw [ht] at hf
          split at h
          · cases h
          · next o₃ xs hl3 =>
            simp only [Prod.mk.injEq, Except.ok.injEq] at h
            obtain ⟨rfl, _⟩ := h
            have hy2 : o₂.yi = (ys ++ [l]).map fun y => .num (.fin y) := by
              rw [hf.5]
              simp only [record.single, hy, List.map_append, List.map_cons, List.map_nil]
            have hps2 : o₂.cfg.acq.isPs = false := by
              have hc : o₂.cfg = o.cfg := hf.1
              rw [hc]; exact hps
            obtain ⟨ls, h1, h2, h3⟩ := ih (ys := ys ++ [l]) (by simp) hps2 hy2 hl3
            refine ⟨l :: ls, by simp [h1], by rw [h2, hy2, hy]; simp, ?_⟩
            intro j hj
            cases j with
            | zero => simp [hl]
            | succ j =>
              simp only [List.length_cons, Nat.add_lt_add_iff_right] at hj
              have := h3 j hj
              simpa using this

theorem abs_sum_le_of (l : List ℝ) {B : ℝ} (h : ∀ x ∈ l, |x| ≤ B) : |l.sum| ≤ l.length * B := by
  induction l with
  | nil => simp
  | cons x l ih =>
    have h1 := h x (by simp)
    have h2 := ih fun y hy => h y (by simp [hy])
    have h3 := abs_add_le x l.sum
    simp only [List.sum_cons, List.length_cons]
    push_cast
    linarith

/-- The numbers behind the lies of a batch. -/
theorem means_drift (hp : 1 ≤ p) {ys ls : List (Bin p)} (hne : ys ≠ []) {N : ℕ} (hN : ys.length + ls.length ≤ N)
    (hN2 : N ≤ 2 ^ p) (hls : ∀ (j : ℕ) (hj : j < ls.length), ls[j] = forestMeanAt (binArith p) (ys ++ ls.take j)) {B : ℝ}
    (hB : ∀ y ∈ ys, |y.1| ≤ B) : ∀ (j : ℕ) (hj : j < ls.length),
    |(ls[j]).1 - meanOf (ys.map Subtype.val)| ≤ ((1 + 1 / 2 ^ p) ^ (N * (j + 1)) - 1) * B := by
  obtain ⟨u0, u1⟩ := unit_le_half hp
  set m : ℝ := meanOf (ys.map Subtype.val) with hm
  have hn0 : (0 : ℝ) < ys.length := by exact_mod_cast List.length_pos_iff.2 hne
  have hB0 : 0 ≤ B := by
    obtain ⟨y, hy⟩ := List.exists_mem_of_ne_nil _ hne
    exact (abs_nonneg _).trans (hB y hy)
  have hmB : |m| ≤ B := by
    rw [hm, meanOf, abs_div, Nat.abs_cast, List.length_map, div_le_iff₀ hn0]
    have := abs_sum_le_of (ys.map Subtype.val) (B := B) (by simpa using fun a b h => hB ⟨a, b⟩ h)
    simpa [mul_comm] using this
  intro j
  induction j using Nat.strong_induction_on with
  | _ j ih =>
    intro hj
    have hK : ∀ k : ℕ, 1 ≤ (1 + 1 / 2 ^ p : ℝ) ^ k := fun k => one_le_pow₀ (by linarith)
    set K : ℝ := (1 + 1 / 2 ^ p) ^ (N * j) with hKd
    have hK1 : 1 ≤ K := hK _
    -- the earlier lies
    have hearly : ∀ z ∈ ls.take j, |z.1 - m| ≤ (K - 1) * B := by
      intro z hz
      obtain ⟨i, hi, rfl⟩ := List.getElem_of_mem hz
      rw [List.length_take] at hi
      rw [List.getElem_take]
      refine (ih i (by omega) (by omega)).trans (mul_le_mul_of_nonneg_right ?_ hB0)
      have : (1 + 1 / 2 ^ p : ℝ) ^ (N * (i + 1)) ≤ K :=
        pow_le_pow_right₀ (by linarith) (Nat.mul_le_mul_left _ (by omega))
      linarith
    have hall : ∀ z ∈ ys ++ ls.take j, |z.1| ≤ K * B := by
      intro z hz
      rcases List.mem_append.1 hz with hz | hz
      · exact (hB z hz).trans (le_mul_of_one_le_left hB0 hK1)
      · have h1 := hearly z hz
        have h2 := abs_add_le (z.1 - m) m
        rw [sub_add_cancel] at h2
        linarith
    set H := ys ++ ls.take j with hH
    have hHne : H ≠ [] := by simp [hH, hne]
    have hlen : H.length = ys.length + j := by
      rw [hH, List.length_append, List.length_take]; omega
    have hr := mean_rounded hp H hHne (by omega)
    rw [hls j hj]
    have hHpos : (0 : ℝ) < H.length := by exact_mod_cast List.length_pos_iff.2 hHne
    have hmean : |meanOf (H.map Subtype.val) - m| ≤ (K - 1) * B := by
      have e : meanOf (H.map Subtype.val) - m = ((ls.take j).map fun z => z.1 - m).sum / H.length := by
        have h1 : ((ls.take j).map fun z => z.1 - m).sum = ((ls.take j).map Subtype.val).sum - j * m := by
          have hl : (ls.take j).length = j := by rw [List.length_take]; omega
          have : ∀ L : List (Bin p), (L.map fun z => z.1 - m).sum = (L.map Subtype.val).sum - L.length * m := by
            intro L
            induction L with
            | nil => simp
            | cons a L ih => simp only [List.map_cons, List.sum_cons, ih, List.length_cons]; push_cast; ring
          rw [this, hl]
        have h2 : (ys.map Subtype.val).sum = ys.length * m := by
          rw [hm, meanOf, List.length_map]; field_simp
        rw [h1, meanOf, List.length_map, hH, List.map_append, List.sum_append, h2, ← hH, hlen]
        have : ((ys.length + j : ℕ) : ℝ) ≠ 0 := by rw [← hlen]; exact hHpos.ne'
        field_simp
        push_cast; ring
      rw [e, abs_div, Nat.abs_cast, div_le_iff₀ hHpos]
      have h3 := abs_sum_le_of ((ls.take j).map fun z => z.1 - m) (B := (K - 1) * B) (by
        intro x hx
        obtain ⟨z, hz, rfl⟩ := List.mem_map.1 hx
        exact hearly z hz)
      refine h3.trans ?_
      rw [List.length_map, mul_comm]
      refine mul_le_mul_of_nonneg_left ?_ (mul_nonneg (by linarith) hB0)
      have : (ls.take j).length ≤ H.length := by rw [hH, List.length_append]; omega
      exact_mod_cast this
    have habs : meanOf (H.map fun z => |z.1|) ≤ K * B := by
      rw [meanOf, List.length_map, div_le_iff₀ hHpos]
      have h3 := abs_sum_le_of (H.map fun z => |z.1|) (B := K * B) (by
        intro x hx
        obtain ⟨z, hz, rfl⟩ := List.mem_map.1 hx
        rw [abs_abs]; exact hall z hz)
      have := (le_abs_self _).trans h3
      rw [List.length_map] at this
      linarith
    have hpow : (1 + 1 / 2 ^ p : ℝ) ^ (H.length + 1) ≤ (1 + 1 / 2 ^ p) ^ N :=
      pow_le_pow_right₀ (by linarith) (by omega)
    have hN1 := hK N
    have hsplit : (1 + 1 / 2 ^ p : ℝ) ^ (N * (j + 1)) = K * (1 + 1 / 2 ^ p) ^ N := by
      rw [hKd, ← pow_add]; congr 1
    rw [hsplit]
    have hH1 := hK (H.length + 1)
    have habs0 : 0 ≤ meanOf (H.map fun z => |z.1|) := div_nonneg (List.sum_nonneg fun y hy => by
      obtain ⟨z, _, rfl⟩ := List.mem_map.1 hy
      exact abs_nonneg _) (Nat.cast_nonneg _)
    have hr2 : |(forestMeanAt (binArith p) H).1 - meanOf (H.map Subtype.val)| ≤ ((1 + 1 / 2 ^ p) ^ N - 1) * (K * B) :=
      hr.trans (mul_le_mul (by linarith) habs habs0 (by linarith))
    have t := abs_add_le ((forestMeanAt (binArith p) H).1 - meanOf (H.map Subtype.val)) (meanOf (H.map Subtype.val) - m)
    rw [sub_add_sub_cancel] at t
    nlinarith [t, hr2, hmean]

theorem isBinary_double {x : ℝ} (h : IsBinary p x) : IsBinary p (x + x) := by
  obtain ⟨m, e, hm, rfl⟩ := h
  refine ⟨m, e + 1, hm, ?_⟩
  rw [zpow_add_one₀ (by norm_num)]
  ring

/-- `3 * (2 ** 53 - 2)` lies halfway between two doubles; the even one is the smaller. -/
theorem rnd_three : rnd 53 (3 * (2 ^ 53 - 2)) = 3 * 2 ^ 53 - 8 := by
  have hpos : (0 : ℝ) < 3 * (2 ^ 53 - 2) := by norm_num
  have hl : Int.log 2 |(3 * (2 ^ 53 - 2) : ℝ)| = 54 := by
    rw [abs_of_pos hpos]
    refine le_antisymm ?_ ?_
    · have : Int.log 2 (3 * (2 ^ 53 - 2) : ℝ) < 55 := by
        rw [← Int.lt_zpow_iff_log_lt (b := 2) (by norm_num) hpos]
        norm_num
      omega
    · rw [← Int.zpow_le_iff_le_log (b := 2) (by norm_num) hpos]
      norm_num
  have hu : ulp 53 (3 * (2 ^ 53 - 2)) = 4 := by
    unfold ulp
    rw [hl]
    norm_num
  have hfl : ⌊(3 * (2 ^ 53 - 2) / 4 : ℝ)⌋ = 3 * 2 ^ 51 - 2 := by
    rw [Int.floor_eq_iff]
    norm_num
  have hfr : Int.fract (3 * (2 ^ 53 - 2) / 4 : ℝ) = 1 / 2 := by
    rw [← Int.self_sub_floor, hfl]
    norm_num
  unfold rnd
  rw [hu]
  unfold roundHalfEven
  rw [hfr, hfl, if_neg (lt_irrefl _), if_neg (lt_irrefl _), if_pos (by decide)]
  norm_num

theorem rnd_third : rnd 53 ((3 * 2 ^ 53 - 8) / 3) = 2 ^ 53 - 3 := by
  have hpos : (0 : ℝ) < (3 * 2 ^ 53 - 8) / 3 := by norm_num
  have hl : Int.log 2 |((3 * 2 ^ 53 - 8) / 3 : ℝ)| = 52 := by
    rw [abs_of_pos hpos]
    refine le_antisymm ?_ ?_
    · have : Int.log 2 ((3 * 2 ^ 53 - 8) / 3 : ℝ) < 53 := by
        rw [← Int.lt_zpow_iff_log_lt (b := 2) (by norm_num) hpos]
        norm_num
      omega
    · rw [← Int.zpow_le_iff_le_log (b := 2) (by norm_num) hpos]
      norm_num
  have hu : ulp 53 ((3 * 2 ^ 53 - 8) / 3) = 1 := by
    unfold ulp
    rw [hl]
    norm_num
  unfold rnd
  rw [hu, div_one, roundHalfEven_of_abs_lt (k := 2 ^ 53 - 3) (by rw [abs_lt]; norm_num)]
  norm_num

/-! ## Properties -/

/-- **C153, a batch.** In floating-point arithmetic of any precision: a batch `ask` with `cl_mean`, in a state whose recorded
values are the numbers `ys`, none larger than `B` in absolute value, tells the copy `n` lies; the lie of round `j` differs from
the true mean of the recorded values by at most `(1 + u) ** (N (j + 1)) - 1` times `B`, where `u` is half a unit in the last
place and `N` the number of recorded values and lies.

Missing: the lies are not constant (see the refutation), and the per-second modes. -/
theorem C153_batch_partial (hp : 1 ≤ p) (W : World (Bin p) M R G) (sh : Shared (Bin p) G) (s : Opt (Bin p) M R)
    (hs : Sound s) (hps : s.cfg.acq.isPs = false) (ys : List (Bin p)) (hne : ys ≠ [])
    (hys : s.yi = ys.map fun y => .num (.fin y)) (hcache : s.cache = none) (n : ℤ) (hn : ys.length + n.toNat ≤ 2 ^ p)
    (B : ℝ) (hB : ∀ y ∈ ys, |y.1| ≤ B) (X : List (Point (Bin p)))
    (h : (askMany (binArith p) W sh s n .clMean).2.2 = .ok X) :
    ∃ lies : List (Bin p), lies.length = n.toNat ∧
      (∃ sh₁ o o', Opt.copy (binArith p) W sh { s with rng := (W.seed s.rng).1 } (W.seed s.rng).2 = (sh₁, .ok o) ∧
        liarLoop (binArith p) W sh₁.dims .clMean n.toNat o = (o', .ok X) ∧
        o'.yi = s.yi ++ lies.map fun y => .num (.fin y)) ∧
      ∀ (j : ℕ) (hj : j < lies.length), |(lies[j]).1 - meanOf (ys.map Subtype.val)| ≤
        ((1 + 1 / 2 ^ p) ^ ((ys.length + n.toNat) * (j + 1)) - 1) * B := by
  obtain ⟨_, _, ⟨h1, _⟩ | ⟨sh₁, o, o', h1, h2, _⟩⟩ := askMany_ok h
  · rw [hcache] at h1; cases h1
  · obtain ⟨_, c1, c2, c3, c4, c5, _⟩ := copy_sound (s := { s with rng := (W.seed s.rng).1 })
      ⟨hs.lists, hs.count, hs.aligned⟩ h1
    have c2' : o.yi = s.yi := by simpa using c2
    obtain ⟨ls, l1, l2, l3⟩ := liarLoop_means hne (by rw [c5]; exact hps) (c2'.trans hys) h2
    exact ⟨ls, l1, ⟨sh₁, o, o', h1, h2, by rw [l2, c2']⟩,
      means_drift hp hne (by rw [l1]) hn l3 hB⟩

/-- The state of a session in double precision after two observations: a batch of two with `cl_mean` is delivered.  Meets the
hypotheses of `C153_batch_partial`. -/
example : ∃ (sh : Shared (Bin 53) Unit) (s : Opt (Bin 53) Unit Unit) (X : List (Point (Bin 53))), Sound s ∧
    s.cfg.acq.isPs = false ∧ s.cache = none ∧
    s.yi = [(binArith 53).ofInt 7, (binArith 53).ofInt 9].map (fun y => .num (.fin y)) ∧
    (askMany (binArith 53) (zeroWorld (binArith 53)) sh s 2 .clMean).2.2 = .ok X := by
  obtain ⟨sh', s, h, hall⟩ := C145_every_call (binArith_floatLike (p := 53) (by norm_num))
    (binArith_orderly (by norm_num)) (zeroWorld (binArith 53)) ⟨dblDims, none⟩
    liveCfg ⟨(by decide), fun _ => (by decide), fun k hk => (by cases hk; decide)⟩ (by decide)
    dblDims_float (zeroWorld_reliable (binArith_orderly (by norm_num)) dblDims_valid) (Or.inl rfl) ()
  have hall := hall [.one dblPoint (.num (.fin ((binArith 53).ofInt 7))) true,
    .one dblPoint (.num (.fin ((binArith 53).ofInt 9))) true, .askMany 2 .clMean]
    ⟨⟨dblPoint_mem, ⟨_, rfl⟩, rfl⟩, ⟨dblPoint_mem, ⟨_, rfl⟩, rfl⟩, ⟨by norm_num, by decide⟩, trivial⟩
  obtain ⟨r, pts, hs, _⟩ := init_ok h
  have hflat : Flat dblPoint := ⟨_, List.mem_cons_self, rfl⟩
  have key : ∀ (t : Opt (Bin 53) Unit Unit) (y : Bin 53), t.cfg.acq = .gpHedge → Sound t →
      Returns (tell (binArith 53) (zeroWorld (binArith 53)) sh'.dims t (.lst dblPoint) (.num (.fin y)) true).2 →
      let t' := (tell (binArith 53) (zeroWorld (binArith 53)) sh'.dims t (.lst dblPoint) (.num (.fin y)) true).1
      t'.cfg.acq = .gpHedge ∧ Sound t' ∧ t'.cache = none ∧ t'.yi = t.yi ++ [.num (.fin y)] := by
    intro t y ht hsd hr
    rcases tell_one (binArith 53) (zeroWorld (binArith 53)) sh'.dims t hflat (.num (.fin y)) true with
      ⟨e, he⟩ | ⟨y', ho, _, he, hrec⟩
    · rw [he] at hr
      obtain ⟨a, ha⟩ := hr
      cases ha
    · have hf := tellCore_frame (binArith 53) (zeroWorld (binArith 53)) sh'.dims t (.lst dblPoint) y' true hrec
      have hy' : y' = .num (.fin y) := by
        have := ho
        simpa [OnRecord, ht, AcqFunc.isPs] using this
      subst hy'
      simp only
      rw [he]
      refine ⟨by rw [hf.cfg]; exact ht, ?_, hf.cache, hf.yi⟩
      have := runOps_sound (A := binArith 53) (W := zeroWorld (binArith 53)) (sh := sh') (s := t)
        (calls := [.one dblPoint (.num (.fin y)) true]) (by
          intro p y f hm
          simp only [List.mem_singleton, Call.one.injEq] at hm
          rw [hm.1]; exact hflat) hsd
      simp only [List.map_cons, List.map_nil, runOps, step, Call.toOp, he] at this
      exact this
  simp only [List.map_cons, List.map_nil, runOps, step, Call.toOp, List.mem_cons, List.not_mem_nil, or_false,
    forall_eq_or_imp, forall_eq] at hall
  obtain ⟨r1, r2, r3⟩ := hall
  have back : ∀ {α β : Type} {x : Except PyErr α} {f : α → β}, Returns (do let p ← x; .ok (f p)) → Returns x := by
    intro α β x f hx
    obtain ⟨a, ha⟩ := hx
    cases x with
    | error e => cases ha
    | ok v => exact ⟨v, rfl⟩
  have k1 := key s ((binArith 53).ofInt 7) (by rw [hs]; rfl) (by rw [hs]; exact sound_fresh _ _ _ _) (back r1)
  have k2 := key _ ((binArith 53).ofInt 9) k1.1 k1.2.1 (back r2)
  obtain ⟨X, hX⟩ := back r3
  refine ⟨sh', _, X, k2.2.1, by rw [k2.1]; rfl, k2.2.2.1, ?_, hX⟩
  rw [k2.2.2.2, k1.2.2.2, hs]
  rfl

/-- **C153, two observations.** The lie computed from two recorded values lies between them, however the sum rounds. -/
theorem C153_two_partial (hp : 2 ≤ p) (W : World (Bin p) M R G) (acq : AcqFunc) (hps : acq.isPs = false) (a b : Bin p)
    (hab : a.1 ≤ b.1) :
    ∃ l : Bin p, lie (binArith p) W acq .clMean [.num (.fin a), .num (.fin b)] = .ok (.num (.fin l)) ∧
      a.1 ≤ l.1 ∧ l.1 ≤ b.1 := by
  have hp1 : 1 ≤ p := by omega
  refine ⟨forestMeanAt (binArith p) [a, b], lie_mean (ys := [a, b]) _ W hps (by simp), ?_⟩
  have h2 : ((binArith p).ofInt 2).1 = 2 := by
    rw [bin_ofInt hp1]; norm_num
    have : (2 : ℤ) ^ 1 ≤ 2 ^ p := pow_le_pow_right₀ (by norm_num) hp1
    norm_num at this ⊢
    exact this
  have hv : (forestMeanAt (binArith p) [a, b]).1 = rnd p (rnd p (a.1 + b.1) / 2) := by
    rw [← h2]
    show rnd p (rnd p (rnd p (((binArith p).ofInt 0).1 + a.1) + b.1) / ((binArith p).ofInt 2).1) = _
    rw [bin_zero, zero_add, rnd_of_isBinary hp1 a.2]
  rw [hv]
  have e1 : a.1 + a.1 ≤ rnd p (a.1 + b.1) := by
    rw [← rnd_of_isBinary hp1 (isBinary_double a.2)]; exact rnd_mono hp1 (by linarith)
  have e2 : rnd p (a.1 + b.1) ≤ b.1 + b.1 := by
    rw [← rnd_of_isBinary hp1 (isBinary_double b.2)]; exact rnd_mono hp1 (by linarith)
  constructor
  · conv_lhs => rw [← rnd_of_isBinary hp1 a.2]
    exact rnd_mono hp1 (by linarith)
  · conv_rhs => rw [← rnd_of_isBinary hp1 b.2]
    exact rnd_mono hp1 (by linarith)

/-- The hypotheses of C153_two_partial hold for the doubles 1 and 3. -/
example : ∃ a b : Bin 53, a.1 < b.1 ∧ AcqFunc.isPs .EI = false :=
  ⟨(binArith 53).ofInt 1, (binArith 53).ofInt 3, by
    rw [bin_ofInt (by norm_num) (by norm_num), bin_ofInt (by norm_num) (by norm_num)]; norm_num, rfl⟩

/-- **C153 is false of constancy.** In doubles, with the value `2 ** 53 - 2` on record twice, `cl_mean` first lies
`2 ** 53 - 2`; in the next round, with this lie on record, it lies `2 ** 53 - 3`, which is smaller than every value on
record. -/
theorem C153_refuted_constant : ∃ x l : Bin 53, x.1 = 2 ^ 53 - 2 ∧ l.1 = 2 ^ 53 - 3 ∧
    ∀ (M R G : Type) (W : World (Bin 53) M R G) (acq : AcqFunc), acq.isPs = false →
      lie (binArith 53) W acq .clMean [.num (.fin x), .num (.fin x)] = .ok (.num (.fin x)) ∧
      lie (binArith 53) W acq .clMean [.num (.fin x), .num (.fin x), .num (.fin x)] = .ok (.num (.fin l)) := by
  have rp : (1 : ℕ) ≤ 53 := by norm_num
  have hx : ((binArith 53).ofInt (2 ^ 53 - 2)).1 = 2 ^ 53 - 2 := by
    rw [bin_ofInt rp (by norm_num)]; norm_num
  have h2 : ((binArith 53).ofInt 2).1 = 2 := by rw [bin_ofInt rp (by norm_num)]; norm_num
  have h3 : ((binArith 53).ofInt 3).1 = 3 := by rw [bin_ofInt rp (by norm_num)]; norm_num
  set x := (binArith 53).ofInt (2 ^ 53 - 2) with hxd
  have b1 : rnd 53 x.1 = x.1 := rnd_of_isBinary rp x.2
  have b2 : rnd 53 (x.1 + x.1) = x.1 + x.1 := rnd_of_isBinary rp (isBinary_double x.2)
  have m2 : (forestMeanAt (binArith 53) [x, x]) = x := by
    apply Subtype.ext
    show rnd 53 (rnd 53 (rnd 53 (((binArith 53).ofInt 0).1 + x.1) + x.1) / ((binArith 53).ofInt 2).1) = x.1
    rw [bin_zero, zero_add, b1, b2, h2, show (x.1 + x.1) / 2 = x.1 by ring, b1]
  have m3 : (forestMeanAt (binArith 53) [x, x, x]).1 = 2 ^ 53 - 3 := by
    show rnd 53 (rnd 53 (rnd 53 (rnd 53 (((binArith 53).ofInt 0).1 + x.1) + x.1) + x.1) / ((binArith 53).ofInt 3).1) = _
    rw [bin_zero, zero_add, b1, b2, h3, hx, show ((2 : ℝ) ^ 53 - 2 + (2 ^ 53 - 2) + (2 ^ 53 - 2)) = 3 * (2 ^ 53 - 2) by ring,
      rnd_three, rnd_third]
  refine ⟨x, _, hx, m3, fun M R G W acq hps => ⟨?_, ?_⟩⟩
  · have := lie_mean (ys := [x, x]) (binArith 53) W hps (by simp)
    rw [m2] at this
    exact this
  · exact lie_mean (ys := [x, x, x]) (binArith 53) W hps (by simp)

end Skopt
