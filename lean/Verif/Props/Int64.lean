import Mathlib.Data.Nat.Choose.Bounds
import Mathlib.Tactic.NormNum
import Verif.Lemmas.Combinatorial

/-!
# C93: the lookup table and the simplex indices in 64-bit arithmetic
-/

namespace Dreimac

theorem mapM_storeInt64 (l : List ℕ) (f : ℕ → ℕ) :
    (l.mapM fun x => storeInt64 (f x)) =
      if ∀ x ∈ l, f x < 2 ^ 63 then .ok (l.map f) else .error .overflowError := by
  induction l with
  | nil => rfl
  | cons a l ih =>
    rw [List.mapM_cons, ih]
    by_cases ha : f a < 2 ^ 63
    · rw [show storeInt64 (f a) = .ok (f a) from if_pos ha]
      by_cases hl : ∀ x ∈ l, f x < 2 ^ 63
      · rw [if_pos hl, if_pos (by intro x hx; rcases List.mem_cons.1 hx with rfl | h; exacts [ha, hl x h])]
        rfl
      · rw [if_neg hl, if_neg (fun h => hl fun x hx => h x (List.mem_cons_of_mem _ hx))]
        rfl
    · rw [show storeInt64 (f a) = .error .overflowError from if_neg ha]
      exact (if_neg fun h => ha (h a List.mem_cons_self)).symm

theorem mapM_ite (l : List ℕ) (P : ℕ → Prop) [DecidablePred P] (g : ℕ → List ℕ) :
    (l.mapM fun x => if P x then (.ok (g x) : Except PyErr (List ℕ)) else .error .overflowError) =
      if ∀ x ∈ l, P x then .ok (l.map g) else .error .overflowError := by
  induction l with
  | nil => rfl
  | cons a l ih =>
    rw [List.mapM_cons, ih]
    by_cases ha : P a
    · rw [if_pos ha]
      by_cases hl : ∀ x ∈ l, P x
      · rw [if_pos hl, if_pos (by intro x hx; rcases List.mem_cons.1 hx with rfl | h; exacts [ha, hl x h])]
        rfl
      · rw [if_neg hl, if_neg (fun h => hl fun x hx => h x (List.mem_cons_of_mem _ hx))]
        rfl
    · rw [if_neg ha]
      exact (if_neg fun h => ha (h a List.mem_cons_self)).symm

/-- **C93.** Building the lookup table either raises `OverflowError`, exactly when some entry `C(i, l)` with `i ≤ N`,
`l ≤ D + 1` does not fit into 64 bits, or stores every binomial coefficient exactly. -/
theorem C93_table_exact_or_raises (N D : ℕ) :
    ((∀ i ≤ N, ∀ l ≤ D + 1, Nat.choose i l < 2 ^ 63) → cnsTable64 N D = .ok (cnsTable N D)) ∧
    ((∃ i ≤ N, ∃ l ≤ D + 1, 2 ^ 63 ≤ Nat.choose i l) → cnsTable64 N D = .error .overflowError) := by
  have h : cnsTable64 N D = if ∀ i ∈ List.range (N + 1), ∀ l ∈ List.range (D + 2), Nat.choose i l < 2 ^ 63
      then .ok (cnsTable N D) else .error .overflowError := by
    unfold cnsTable64 cnsTable
    simp only [mapM_storeInt64]
    exact mapM_ite _ _ _
  constructor
  · intro hf
    rw [h, if_pos]
    intro i hi l hl
    exact hf i (by have := List.mem_range.1 hi; omega) l (by have := List.mem_range.1 hl; omega)
  · rintro ⟨i, hi, l, hl, hb⟩
    rw [h, if_neg]
    intro hf
    have := hf i (List.mem_range.2 (by omega)) l (List.mem_range.2 (by omega))
    omega

/-- The tables never contain a wrong number: whatever was built without an exception has the binomial coefficients. -/
theorem table64_ok {N D : ℕ} {T : Table} (h : cnsTable64 N D = .ok T) :
    T = cnsTable N D ∧ ∀ i ≤ N, ∀ l ≤ D + 1, Nat.choose i l < 2 ^ 63 := by
  by_cases hf : ∀ i ≤ N, ∀ l ≤ D + 1, Nat.choose i l < 2 ^ 63
  · rw [(C93_table_exact_or_raises N D).1 hf] at h
    injection h with h
    exact ⟨h.symm, hf⟩
  · push Not at hf
    rw [(C93_table_exact_or_raises N D).2 hf] at h
    simp at h

theorem choose_small {i l N B k : ℕ} (hi : i ≤ N) (hk : l ≤ k) (hB : ∀ j ≤ k, Nat.choose N j < B) :
    Nat.choose i l < B := (Nat.choose_le_choose l hi).trans_lt (hB l hk)

theorem choose3_lim : Nat.choose 3810779 3 < 2 ^ 63 ∧ 2 ^ 63 ≤ Nat.choose 3810780 3 := by
  constructor <;> simp [Nat.choose_eq_descFactorial_div_factorial, Nat.descFactorial, Nat.factorial]

theorem choose4_lim : Nat.choose 121977 4 < 2 ^ 63 ∧ 2 ^ 63 ≤ Nat.choose 121978 4 := by
  constructor <;> simp [Nat.choose_eq_descFactorial_div_factorial, Nat.descFactorial, Nat.factorial]

/-- **C93.** The tables of the constructors: `ToroidalCoords` and `CircularCoords` (dimension 2) can be built for exactly
up to 3810779 landmarks, `ComplexProjectiveCoords` (dimension 3) for exactly up to 121977; above, the
constructor raises `OverflowError`. -/
theorem C93_constructor_limits (n : ℕ) :
    (n ≤ 3810779 → cnsTable64 n 2 = .ok (cnsTable n 2)) ∧ (3810779 < n → cnsTable64 n 2 = .error .overflowError) ∧
    (n ≤ 121977 → cnsTable64 n 3 = .ok (cnsTable n 3)) ∧ (121977 < n → cnsTable64 n 3 = .error .overflowError) := by
  refine ⟨fun h => (C93_table_exact_or_raises n 2).1 fun i hi l hl => ?_,
    fun h => (C93_table_exact_or_raises n 2).2 ⟨3810780, by omega, 3, by omega, choose3_lim.2⟩,
    fun h => (C93_table_exact_or_raises n 3).1 fun i hi l hl => ?_,
    fun h => (C93_table_exact_or_raises n 3).2 ⟨121978, by omega, 4, by omega, choose4_lim.2⟩⟩
  · refine choose_small (N := 3810779) (k := 3) (hi.trans h) hl fun j hj => ?_
    rcases (by omega : j = 0 ∨ j = 1 ∨ j = 2 ∨ j = 3) with rfl | rfl | rfl | rfl
    · simp
    · simp
    · rw [Nat.choose_two_right]; norm_num
    · exact choose3_lim.1
  · refine choose_small (N := 121977) (k := 4) (hi.trans h) hl fun j hj => ?_
    rcases (by omega : j = 0 ∨ j = 1 ∨ j = 2 ∨ j = 3 ∨ j = 4) with rfl | rfl | rfl | rfl | rfl
    · simp
    · simp
    · rw [Nat.choose_two_right]; norm_num
    · simp [Nat.choose_eq_descFactorial_div_factorial, Nat.descFactorial, Nat.factorial]
    · exact choose4_lim.1

theorem add64_nat {x y : ℕ} (h : x + y < 2 ^ 63) : add64 x y = ((x + y : ℕ) : ℤ) := by
  unfold add64
  push_cast
  rw [Int.bmod_eq_of_le]
  · omega
  · have : ((2 ^ 64 : ℕ) : ℤ) = 2 ^ 64 := by norm_num
    omega

/-- The compiled sum is the 64-bit two's complement number congruent to the exact sum. -/
theorem add64_spec (x y : ℤ) : -2 ^ 63 ≤ add64 x y ∧ add64 x y < 2 ^ 63 ∧ (add64 x y - (x + y)) % 2 ^ 64 = 0 := by
  have h : ((2 ^ 64 : ℕ) : ℤ) = 2 ^ 64 := by norm_num
  refine ⟨?_, ?_, ?_⟩
  · have := Int.le_bmod (x := x + y) (m := 2 ^ 64) (by norm_num)
    unfold add64
    omega
  · have := Int.bmod_lt (x := x + y) (m := 2 ^ 64) (by norm_num)
    unfold add64
    omega
  · unfold add64
    rw [Int.bmod_def, h]
    split <;> omega

example : add64 (2 ^ 63 - 1) 1 = -2 ^ 63 := by decide +kernel

theorem foldl_add64 (l : List ℕ) (f : ℕ → ℕ) (a : ℕ) (h : l.foldl (fun r x => r + f x) a < 2 ^ 63) :
    l.foldl (fun (r : ℤ) x => add64 r (f x)) (a : ℤ) = ((l.foldl (fun r x => r + f x) a : ℕ) : ℤ) := by
  induction l generalizing a with
  | nil => rfl
  | cons x l ih =>
    simp only [List.foldl_cons] at h ⊢
    have hm : a + f x ≤ l.foldl (fun r x => r + f x) (a + f x) := by
      rw [foldl_add_eq]; omega
    rw [add64_nat (by omega), ih _ h]

/-- **C93.** With a table that was built without an exception, the compiled 64-bit index arithmetic never wraps around:
for every simplex of every dimension of the table, it returns the exact index (see C01, C02). -/
theorem C93_index_arithmetic_exact (N D n d : ℕ) (hn : n ≤ N) (hd : d ≤ D) (T : Table) (hT : cnsTable64 N D = .ok T)
    (s : List ℕ) (hs : IsSimplex n d s) : cnsForward64 s T = (cnsForward s (cnsTable N D) : ℤ) := by
  obtain ⟨rfl, hf⟩ := table64_ok hT
  have h : cnsForward s (cnsTable N D) < 2 ^ 63 := by
    rw [cnsForward_eq_colexSum (fun v hv => ((hs.vertices v hv).trans_le hn).le) (by rw [hs.card]; omega)]
    have h1 := colexSum_lt hs.increasing hs.vertices
    rw [hs.card] at h1
    exact h1.trans (hf n hn (d + 1) (by omega))
  unfold cnsForward64
  exact foldl_add64 _ _ 0 h

example : ∃ T, cnsTable64 6 3 = .ok T ∧ cnsForward64 [1, 3, 4] T = 8 := ⟨_, rfl, by decide⟩

example : ∃ T, cnsTable64 6 3 = .ok T ∧ cnsForward64 [1, 3, 4] T = (cnsForward [1, 3, 4] (cnsTable 6 3) : ℤ) :=
  ⟨_, rfl, C93_index_arithmetic_exact 6 3 6 2 le_rfl (by omega) _ rfl _ ⟨rfl, by decide, by decide⟩⟩

example : cnsTable64 1000 2 = .ok (cnsTable 1000 2) := (C93_constructor_limits 1000).1 (by omega)
example : cnsTable64 200000 3 = .error .overflowError := (C93_constructor_limits 200000).2.2.2 (by omega)
example : cnsTable64 70 34 = .error .overflowError :=
  (C93_table_exact_or_raises 70 34).2 ⟨70, le_rfl, 35, by omega, by decide +kernel⟩

end Dreimac
