import Verif.Basic
import Mathlib.Data.List.Forall2
import Mathlib.Order.Basic
import Mathlib.Tactic.Common

/-! Helper lemmas about the error monad, `mapE`, dictionaries and numpy-like list functions. -/

namespace Skopt

section ExceptLemmas
variable {α β : Type}

theorem bind_eq_ok {x : Except PyErr α} {f : α → Except PyErr β} {b : β} :
    (x >>= f) = Except.ok b ↔ ∃ a, x = Except.ok a ∧ f a = Except.ok b := by
  cases x with
  | error e => simp [bind, Except.bind]
  | ok a => simp [bind, Except.bind]

@[simp] theorem ok_bind (a : α) (f : α → Except PyErr β) : (Except.ok a >>= f) = f a := rfl
@[simp] theorem error_bind (e : PyErr) (f : α → Except PyErr β) :
    ((Except.error e : Except PyErr α) >>= f) = Except.error e := rfl

theorem mapE_nil (f : α → Except PyErr β) : mapE f [] = .ok [] := rfl

theorem mapE_cons_ok {f : α → Except PyErr β} {x : α} {xs : List α} {zs : List β} :
    mapE f (x :: xs) = .ok zs ↔ ∃ y ys, f x = .ok y ∧ mapE f xs = .ok ys ∧ zs = y :: ys := by
  simp only [mapE]
  cases f x with
  | error e => simp
  | ok y =>
    cases mapE f xs with
    | error e => simp
    | ok ys => simp [eq_comm]

theorem mapE_eq_ok {f : α → Except PyErr β} : ∀ {xs : List α} {ys : List β},
    mapE f xs = .ok ys ↔ List.Forall₂ (fun x y => f x = .ok y) xs ys
  | [], ys => by simp [mapE_nil, eq_comm]
  | x :: xs, ys => by
      rw [mapE_cons_ok]
      constructor
      · rintro ⟨y, ys', h1, h2, rfl⟩
        exact .cons h1 (mapE_eq_ok.1 h2)
      · intro h
        cases h with
        | cons h1 h2 => exact ⟨_, _, h1, mapE_eq_ok.2 h2, rfl⟩

theorem mapE_length {f : α → Except PyErr β} {xs : List α} {ys : List β}
    (h : mapE f xs = .ok ys) : ys.length = xs.length :=
  (List.Forall₂.length_eq (mapE_eq_ok.1 h)).symm

theorem mapE_ok_of_forall {f : α → Except PyErr β} {g : α → β} {xs : List α}
    (h : ∀ x ∈ xs, f x = .ok (g x)) : mapE f xs = .ok (xs.map g) := by
  induction xs with
  | nil => rfl
  | cons x xs ih =>
    rw [mapE_cons_ok]
    exact ⟨g x, xs.map g, h x (by simp), ih (fun y hy => h y (by simp [hy])), rfl⟩

theorem mapE_congr {f g : α → Except PyErr β} {xs : List α} (h : ∀ x ∈ xs, f x = g x) :
    mapE f xs = mapE g xs := by
  induction xs with
  | nil => rfl
  | cons x xs ih =>
    simp only [mapE]
    rw [h x (by simp), ih (fun y hy => h y (by simp [hy]))]

theorem mapE_mem {f : α → Except PyErr β} {xs : List α} {ys : List β}
    (h : mapE f xs = .ok ys) {y : β} (hy : y ∈ ys) : ∃ x ∈ xs, f x = .ok y := by
  have := mapE_eq_ok.1 h
  clear h
  induction this with
  | nil => simp at hy
  | cons h1 _ ih =>
    rcases List.mem_cons.1 hy with rfl | hy
    · exact ⟨_, by simp, h1⟩
    · obtain ⟨x, hx, hf⟩ := ih hy
      exact ⟨x, by simp [hx], hf⟩

theorem mapE_map {γ : Type} (f : β → Except PyErr γ) (g : α → β) (xs : List α) :
    mapE f (xs.map g) = mapE (fun x => f (g x)) xs := by
  induction xs with
  | nil => rfl
  | cons x xs ih => simp only [List.map_cons, mapE, ih]

/-- `mapE` fails exactly when some element fails. -/
theorem mapE_error_iff {f : α → Except PyErr β} {xs : List α} :
    (∃ e, mapE f xs = .error e) ↔ ∃ x ∈ xs, ∃ e, f x = .error e := by
  induction xs with
  | nil => simp [mapE_nil]
  | cons x xs ih =>
    simp only [mapE, List.mem_cons, exists_eq_or_imp]
    cases hfx : f x with
    | error e => simp
    | ok y =>
      cases hm : mapE f xs with
      | error e =>
        have : ∃ e, mapE f xs = .error e := ⟨e, hm⟩
        rw [ih] at this
        simp [this]
      | ok ys =>
        have : ¬ ∃ e, mapE f xs = .error e := by simp [hm]
        rw [ih] at this
        simp [this]

end ExceptLemmas

section PyGet
variable {α : Type}

theorem pyGet_eq_ok {xs : List α} {i : Nat} {a : α} : pyGet xs i = .ok a ↔ xs[i]? = some a := by
  unfold pyGet; cases xs[i]? <;> simp

theorem pyGet_mem {xs : List α} {i : Nat} {a : α} (h : pyGet xs i = .ok a) : a ∈ xs :=
  List.mem_of_getElem? (pyGet_eq_ok.1 h)

theorem pyGet_lt {xs : List α} {i : Nat} (h : i < xs.length) : pyGet xs i = .ok xs[i] := by
  simp [pyGet, h]

theorem pyGet_ge {xs : List α} {i : Nat} (h : xs.length ≤ i) : pyGet xs i = .error .indexError := by
  simp [pyGet, h]

end PyGet

section Dict
variable {K V : Type} [DecidableEq K]

theorem dictGet_eq_ok_mem {d : List (K × V)} {k : K} {v : V} (h : dictGet d k = .ok v) :
    (k, v) ∈ d := by
  unfold dictGet at h
  split at h
  · rename_i p hp
    have h1 := List.mem_of_find?_eq_some hp
    have h2 := List.find?_some hp
    simp at h2 h
    subst h2; subst h
    exact h1
  · simp at h

theorem dictGet_of_mem {d : List (K × V)} {k : K} {v : V}
    (hnd : (d.map Prod.fst).Nodup) (h : (k, v) ∈ d) : dictGet d k = .ok v := by
  unfold dictGet
  induction d with
  | nil => simp at h
  | cons p d ih =>
    simp only [List.map_cons, List.nodup_cons] at hnd
    by_cases hp : p.1 = k
    · simp only [List.find?_cons, hp, decide_true]
      rcases List.mem_cons.1 h with h | h
      · subst h; rfl
      · exact absurd (List.mem_map.2 ⟨_, h, rfl⟩) (hp ▸ hnd.1)
    · rw [List.find?_cons_of_neg (by simpa using hp)]
      rcases List.mem_cons.1 h with h | h
      · exact absurd (by rw [← h]) hp
      · exact ih hnd.2 h

theorem dictSet_mem {d : List (K × V)} {k : K} {v : V} {p : K × V} (h : p ∈ dictSet d k v) :
    p = (k, v) ∨ p ∈ d := by
  unfold dictSet at h
  split at h
  · obtain ⟨q, hq, rfl⟩ := List.mem_map.1 h
    split
    · exact Or.inl rfl
    · exact Or.inr hq
  · rcases List.mem_append.1 h with h | h
    · exact Or.inr h
    · exact Or.inl (by simpa using h)

theorem dictSet_new {d : List (K × V)} {k : K} {v : V} (h : k ∉ d.map Prod.fst) :
    dictSet d k v = d ++ [(k, v)] := by
  unfold dictSet
  rw [if_neg]
  simp only [List.any_eq_true, decide_eq_true_eq, not_exists, not_and]
  intro p hp hk
  exact h (List.mem_map.2 ⟨p, hp, hk⟩)

theorem dictOf_mem {kvs : List (K × V)} {p : K × V} (h : p ∈ dictOf kvs) : p ∈ kvs := by
  have key : ∀ (kvs d : List (K × V)), p ∈ kvs.foldl (fun d p => dictSet d p.1 p.2) d →
      p ∈ d ∨ p ∈ kvs := by
    intro kvs
    induction kvs with
    | nil => intro d h; exact Or.inl h
    | cons q kvs ih =>
      intro d h
      rcases ih _ h with h | h
      · rcases dictSet_mem h with h | h
        · exact Or.inr (by simp [h])
        · exact Or.inl h
      · exact Or.inr (by simp [h])
  rcases key kvs [] h with h | h
  · simp at h
  · exact h

/-- With distinct keys, building a dict keeps the list of pairs. -/
theorem dictOf_nodup {kvs : List (K × V)} (h : (kvs.map Prod.fst).Nodup) : dictOf kvs = kvs := by
  have key : ∀ (kvs d : List (K × V)), ((d ++ kvs).map Prod.fst).Nodup →
      kvs.foldl (fun d p => dictSet d p.1 p.2) d = d ++ kvs := by
    intro kvs
    induction kvs with
    | nil => intro d _; simp
    | cons q kvs ih =>
      intro d hnd
      rw [List.foldl_cons, dictSet_new, ih]
      · simp
      · simpa using hnd
      · intro hmem
        simp only [List.map_append, List.map_cons] at hnd
        exact (List.nodup_append.1 hnd).2.2 _ hmem _ (List.mem_cons_self ..) rfl
  have := key kvs [] (by simpa using h)
  rw [List.nil_append] at this
  exact this

end Dict

section Clip
variable {F : Type} [LinearOrder F]

theorem npClip_mem {lo hi : F} (h : lo ≤ hi) (x : F) : lo ≤ npClip lo hi x ∧ npClip lo hi x ≤ hi :=
  ⟨le_min (le_max_right _ _) h, min_le_right _ _⟩

theorem npClip_of_mem {lo hi x : F} (h1 : lo ≤ x) (h2 : x ≤ hi) : npClip lo hi x = x := by
  unfold npClip; rw [max_eq_left h1, min_eq_left h2]

end Clip

section ToNum
variable {F : Type}

theorem toNum_eq_ok {v : Val F} {x : F} : v.toNum = .ok x ↔ v = .num x := by
  cases v <;> simp [Val.toNum]

theorem mapE_toNum_eq_ok {vs : List (Val F)} {xs : List F} :
    mapE Val.toNum vs = .ok xs ↔ vs = xs.map Val.num := by
  rw [mapE_eq_ok]
  constructor
  · intro h
    induction h with
    | nil => rfl
    | cons h1 _ ih => rw [toNum_eq_ok.1 h1, ih]; rfl
  · rintro rfl
    induction xs with
    | nil => exact .nil
    | cons x xs ih => exact .cons (toNum_eq_ok.2 rfl) ih

@[simp] theorem mapE_toNum_map (xs : List F) : mapE Val.toNum (xs.map Val.num) = .ok xs :=
  mapE_toNum_eq_ok.2 rfl

@[simp] theorem mapE_toNum_map_comp {α : Type} (f : α → F) (xs : List α) :
    mapE Val.toNum (xs.map fun x => .num (f x)) = .ok (xs.map f) :=
  mapE_toNum_eq_ok.2 (by simp [Function.comp_def])

end ToNum

section Promote
variable {F : Type}

/-- No promotion happens in a list that does not mix strings with numbers. -/
theorem promote_eq_self (A : Arith F) {ctx : List (Val F)} {v : Val F} (hv : v ∈ ctx)
    (h : (∀ w ∈ ctx, w.isStr = false) ∨ (∀ w ∈ ctx, w.isNum = false)) : promote A ctx v = v := by
  unfold promote
  split
  · rfl
  · split
    · rename_i hs
      rcases h with h | h
      · rw [List.any_eq_true] at hs
        obtain ⟨w, hw, hws⟩ := hs
        rw [h w hw] at hws; exact absurd hws (by simp)
      · have := h v hv
        cases v <;> simp_all [Val.isNum]
    · rfl

theorem npArray_homog (A : Arith F) {xs : List (Val F)} (hseq : ∀ w ∈ xs, w.isSeq = false)
    (h : (∀ w ∈ xs, w.isStr = false) ∨ (∀ w ∈ xs, w.isNum = false)) : npArray A xs = .ok xs := by
  unfold npArray
  rw [if_neg]
  · congr 1
    conv_rhs => rw [← List.map_id xs]
    exact List.map_congr_left fun v hv => promote_eq_self A hv h
  · simp only [List.any_eq_true, not_exists, not_and]
    intro w hw
    simp [hseq w hw]

end Promote

section Arg
variable {F : Type}

theorem argBest_go_spec (better : F → F → Bool) (b : F) (i k : Nat) (ys : List F) :
    argBest.go better b i k ys = i ∨
      (k ≤ argBest.go better b i k ys ∧ argBest.go better b i k ys < k + ys.length) := by
  induction ys generalizing b i k with
  | nil => exact Or.inl rfl
  | cons y ys ih =>
    simp only [argBest.go, List.length_cons]
    split
    · rcases ih y k (k + 1) with h | h
      · right; omega
      · right; omega
    · rcases ih b i (k + 1) with h | h
      · exact Or.inl h
      · right; omega

theorem argBest_lt {better : F → F → Bool} {xs : List F} {i : Nat}
    (h : argBest better xs = some i) : i < xs.length := by
  cases xs with
  | nil => simp [argBest] at h
  | cons x xs =>
    simp only [argBest, Option.some.injEq] at h
    subst h
    rcases argBest_go_spec better x 0 1 xs with h | h
    · simp [h]
    · simp; omega

/-- What the scan of `np.argmin` returns. -/
theorem argBest_go_min [LinearOrder F] (b : F) (i k : Nat) (ys : List F) :
    (argBest.go (fun a b => decide (a < b)) b i k ys = i ∧ ∀ y ∈ ys, b ≤ y) ∨
    (∃ j, ∃ h : j < ys.length, argBest.go (fun a b => decide (a < b)) b i k ys = k + j ∧
      ys[j] < b ∧ (∀ y ∈ ys, ys[j] ≤ y) ∧ ∀ j' (h' : j' < j), ys[j] < ys[j']) := by
  induction ys generalizing b i k with
  | nil => exact Or.inl ⟨rfl, by simp⟩
  | cons y ys ih =>
    simp only [argBest.go]
    by_cases hy : y < b
    · rw [if_pos (by simpa using hy)]
      right
      rcases ih y k (k + 1) with ⟨h1, h2⟩ | ⟨j, hj, h1, h2, h3, h4⟩
      · refine ⟨0, by simp, by simp [h1], by simpa using hy, ?_, by simp⟩
        intro z hz
        rcases List.mem_cons.1 hz with rfl | hz
        · simp
        · simpa using h2 z hz
      · refine ⟨j + 1, by simpa using hj, by rw [h1]; omega, by simpa using h2.trans hy, ?_, ?_⟩
        · intro z hz
          rcases List.mem_cons.1 hz with rfl | hz
          · simpa using h2.le
          · simpa using h3 z hz
        · intro j' h'
          cases j' with
          | zero => simpa using h2
          | succ j' => simpa using h4 j' (by omega)
    · rw [if_neg (by simpa using hy)]
      have hy' := not_lt.1 hy
      rcases ih b i (k + 1) with ⟨h1, h2⟩ | ⟨j, hj, h1, h2, h3, h4⟩
      · left
        refine ⟨h1, ?_⟩
        intro z hz
        rcases List.mem_cons.1 hz with rfl | hz
        · exact hy'
        · exact h2 z hz
      · right
        refine ⟨j + 1, by simpa using hj, by rw [h1]; omega, by simpa using h2, ?_, ?_⟩
        · intro z hz
          rcases List.mem_cons.1 hz with rfl | hz
          · simpa using (h2.trans_le hy').le
          · simpa using h3 z hz
        · intro j' h'
          cases j' with
          | zero => simpa using h2.trans_le hy'
          | succ j' => simpa using h4 j' (by omega)

/-- `np.argmin` returns the first position of the minimum. -/
theorem npArgmin_spec [LinearOrder F] {xs : List F} {i : Nat} (h : npArgmin xs = .ok i) :
    ∃ hi : i < xs.length, (∀ y ∈ xs, xs[i] ≤ y) ∧ ∀ j (hj : j < i), xs[i] < xs[j] := by
  cases xs with
  | nil => simp [npArgmin, argBest] at h
  | cons x xs =>
    simp only [npArgmin, argBest, Except.ok.injEq] at h
    rcases argBest_go_min x 0 1 xs with ⟨h1, h2⟩ | ⟨j, hj, h1, h2, h3, h4⟩
    · rw [h1] at h; subst h
      refine ⟨by simp, ?_, by simp⟩
      intro y hy
      rcases List.mem_cons.1 hy with rfl | hy
      · simp
      · simpa using h2 y hy
    · rw [h1] at h; subst h
      have e : 1 + j = j + 1 := by omega
      refine ⟨by simp; omega, ?_, ?_⟩
      · intro y hy
        simp only [e, List.getElem_cons_succ]
        rcases List.mem_cons.1 hy with rfl | hy
        · exact h2.le
        · exact h3 y hy
      · intro j' hj'
        simp only [e, List.getElem_cons_succ]
        cases j' with
        | zero => simpa using h2
        | succ j' => simpa using h4 j' (by omega)

theorem npArgmin_ok [LinearOrder F] {xs : List F} (h : xs ≠ []) : ∃ i, npArgmin xs = .ok i := by
  cases xs with
  | nil => exact absurd rfl h
  | cons x xs => exact ⟨_, rfl⟩

theorem npArgmax_eq_dual [LinearOrder F] (xs : List F) :
    npArgmax xs = npArgmin (F := Fᵒᵈ) xs := by
  have hb : (fun a b : F => decide (b < a)) = (fun a b : Fᵒᵈ => decide (a < b)) := by
    funext a b
    exact decide_eq_decide.2 Iff.rfl
  unfold npArgmax npArgmin
  rw [hb]
  rfl

/-- `np.argmax` returns the first position of the maximum. -/
theorem npArgmax_spec [LinearOrder F] {xs : List F} {i : Nat} (h : npArgmax xs = .ok i) :
    ∃ hi : i < xs.length, (∀ y ∈ xs, y ≤ xs[i]) ∧ ∀ j (hj : j < i), xs[j] < xs[i] := by
  rw [npArgmax_eq_dual] at h
  exact npArgmin_spec (F := Fᵒᵈ) h

theorem npArgmax_ok [LinearOrder F] {xs : List F} (h : xs ≠ []) : ∃ i, npArgmax xs = .ok i := by
  cases xs with
  | nil => exact absurd rfl h
  | cons x xs => exact ⟨_, rfl⟩

end Arg

end Skopt
