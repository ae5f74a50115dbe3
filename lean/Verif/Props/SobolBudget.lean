import Verif.Props.Sobol
namespace Skopt
variable {F : Type}

/-- **C26, the skip.** A generator can be made exactly with a skip of zero or of a power of two, and starts without
having handed out points; any other skip raises ValueError. -/
theorem C26_skip_accepted (skip : Nat) (randomize : Bool) :
    (skip = 0 ∨ (∃ k, skip = 2 ^ k) → Sobol.new skip randomize = .ok { skip := skip, randomize := randomize }) ∧
    (¬ (skip = 0 ∨ ∃ k, skip = 2 ^ k) → Sobol.new skip randomize = .error .valueError) := by
  have key : skip &&& (skip - 1) = 0 ↔ skip = 0 ∨ ∃ k, skip = 2 ^ k := by
    by_cases h0 : skip = 0
    · subst h0; simp
    · rw [Nat.and_sub_one_eq_zero_iff_isPowerOfTwo h0]
      unfold Nat.isPowerOfTwo
      tauto
  unfold Sobol.new
  constructor
  · intro h; rw [if_pos (key.2 h)]
  · intro h; rw [if_neg (fun hc => h (key.1 hc))]

example : (16 : Nat) = 0 ∨ ∃ k, (16 : Nat) = 2 ^ k := Or.inr ⟨4, rfl⟩
example : Sobol.new 12 true = .error .valueError := rfl

theorem Sobol.next_counts (A : Arith F) (s : Sobol) (dim seed : Nat) :
    (s.next A dim seed).1.numGenerated = s.numGenerated ∧ (s.next A dim seed).1.skip = s.skip := by
  have hi : ∀ t : Sobol, (t.init dim).1.numGenerated = t.numGenerated ∧ (t.init dim).1.skip = t.skip := by
    intro t; unfold Sobol.init; split <;> exact ⟨rfl, rfl⟩
  unfold Sobol.next
  split_ifs with h
  · have := hi s
    revert this
    rcases s.init dim with ⟨t, r⟩
    rintro ⟨h1, h2⟩
    dsimp only at h1 h2 ⊢
    rw [← h1, ← h2]
    split
    · exact ⟨rfl, rfl⟩
    split
    · exact ⟨rfl, rfl⟩
    split
    · exact ⟨rfl, rfl⟩
    split
    · exact ⟨rfl, rfl⟩
    split <;> exact ⟨rfl, rfl⟩
  · dsimp only
    split
    · exact ⟨rfl, rfl⟩
    split
    · exact ⟨rfl, rfl⟩
    split
    · exact ⟨rfl, rfl⟩
    split <;> exact ⟨rfl, rfl⟩

theorem Sobol.rows_counts (A : Arith F) (dim : Nat) : ∀ (n : Nat) (s : Sobol) (seed : Nat),
    (s.rows A dim n seed).1.numGenerated = s.numGenerated ∧ (s.rows A dim n seed).1.skip = s.skip := by
  intro n
  induction n with
  | zero => intro s seed; exact ⟨rfl, rfl⟩
  | succ n ih =>
    intro s seed
    have h := Sobol.next_counts A s dim seed
    rw [Sobol.rows]
    rcases hn : s.next A dim seed with ⟨t, _ | ⟨row, seed'⟩⟩
    · rw [hn] at h; exact h
    · rw [hn] at h
      have h2 := ih t seed'
      simp only
      rcases hr : Sobol.rows A dim n t seed' with ⟨u, _ | rest⟩ <;> rw [hr] at h2 <;>
        exact ⟨h2.1.trans h.1, h2.2.trans h.2⟩

/-- The number of points handed out by a history of `generate` calls: those of the calls that returned. -/
def handedOut [LinearOrder F] (A : Arith F) (mod1 : F → F) : Sobol → List (List (Dim F) × Nat × List F) → Nat
  | _, [] => 0
  | s, c :: cs =>
    (match (s.generate A mod1 c.1 c.2.1 c.2.2).2.2 with
      | .ok _ => c.2.1
      | .error _ => 0) + handedOut A mod1 (s.generate A mod1 c.1 c.2.1 c.2.2).1 cs

theorem Sobol.generate_counts [LinearOrder F] (A : Arith F) (mod1 : F → F) (s : Sobol) (dims : List (Dim F)) (n : Nat)
    (shift : List F) :
    (s.generate A mod1 dims n shift).1.numGenerated = s.numGenerated +
      (match (s.generate A mod1 dims n shift).2.2 with
      | .ok _ => n
      | .error _ => 0) ∧
    (s.generate A mod1 dims n shift).1.skip = s.skip := by
  unfold Sobol.generate
  split
  · exact ⟨rfl, rfl⟩
  · have h := Sobol.rows_counts A dims.length n s s.skip
    revert h
    rcases s.rows A dims.length n s.skip with ⟨t, r⟩
    rintro ⟨h1, h2⟩
    dsimp only at h1 h2 ⊢
    rcases hr : (withNormalized dims fun dims' => do
      let M ← r
      Space.inverseTransform A dims' (numRows
        (if s.randomize then randomShift A mod1 shift M else M))).2 with e | pts
    · simp only [hr]; exact ⟨h1, h2⟩
    · simp only [hr]; exact ⟨by rw [h1], h2⟩

/-- **C25, the lifetime budget.** A generator with a skip that is not zero never hands out more points than the skip,
however it is used, and a call that would exceed it raises ValueError.  Calls that raised do not count. -/
theorem C25_lifetime_budget [LinearOrder F] (A : Arith F) (mod1 : F → F) (skip : Nat) (randomize : Bool) (s₀ : Sobol)
    (hs : Sobol.new skip randomize = .ok s₀) (hk : skip ≠ 0) (history : List (List (Dim F) × Nat × List F)) :
    handedOut A mod1 s₀ history ≤ skip ∧
    ∀ (dims : List (Dim F)) (n : Nat) (shift : List F), skip < handedOut A mod1 s₀ history + n →
      ((s₀.run A mod1 history).generate A mod1 dims n shift).2.2 = .error .valueError := by
  obtain ⟨-, h1, -, h2⟩ := Sobol.new_between hs
  have key : ∀ (history : List (List (Dim F) × Nat × List F)) (s : Sobol), s.skip = skip → s.numGenerated ≤ skip →
      s.numGenerated + handedOut A mod1 s history ≤ skip ∧
      (s.run A mod1 history).numGenerated = s.numGenerated + handedOut A mod1 s history ∧
      (s.run A mod1 history).skip = skip := by
    intro history
    induction history with
    | nil => intro s e le; exact ⟨le, rfl, e⟩
    | cons c cs ih =>
      intro s e le
      have hg := Sobol.generate_counts A mod1 s c.1 c.2.1 c.2.2
      have hle : (s.generate A mod1 c.1 c.2.1 c.2.2).1.numGenerated ≤ skip := by
        rw [hg.1]
        split
        · next heq =>
          by_contra hc
          unfold Sobol.generate at heq
          rw [if_pos ⟨by rw [e]; exact hk, by rw [e]; omega⟩] at heq
          cases heq
        · exact le
      have := ih _ (hg.2.trans e) hle
      rw [hg.1] at this
      refine ⟨?_, ?_, this.2.2⟩
      · rw [handedOut, ← Nat.add_assoc]; exact this.1
      · rw [handedOut, ← Nat.add_assoc]; exact this.2.1
  have := key history s₀ h1 (by omega)
  rw [h2, Nat.zero_add] at this
  refine ⟨this.1, fun dims n shift hlt => ?_⟩
  unfold Sobol.generate
  rw [if_pos]
  rw [this.2.1, this.2.2]
  exact ⟨hk, hlt⟩

/-- Three points have been handed out of four; a refused 41-dimensional space does not count. -/
example : handedOut ratArith id ({ skip := 4, randomize := false } : Sobol)
    [(exDims.take 1, 2, []), (List.replicate 41 (unitReal ratArith), 1, []), (exDims.take 2, 1, [])] = 3 := by
  decide +kernel

end Skopt
