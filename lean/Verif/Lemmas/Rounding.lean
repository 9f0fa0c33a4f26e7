import Mathlib.Tactic.Linarith
import Mathlib.Tactic.Ring
import Mathlib.Tactic.FieldSimp
import Mathlib.Tactic.Positivity
import Mathlib.Algebra.Order.Field.Power
import Verif.Spec.Rounding

/-!
# The IEEE formats satisfy the specification of a rounding function
-/

namespace Dreimac

section
variable {K : Type} [Field K] [LinearOrder K] [IsStrictOrderedRing K] [FloorRing K]

theorem nearestEven_ge_floor (x : K) : ⌊x⌋ ≤ nearestEven x := by
  unfold nearestEven; split <;> omega

theorem nearestEven_le_floor (x : K) : nearestEven x ≤ ⌊x⌋ + 1 := by
  unfold nearestEven; split <;> omega

theorem nearestEven_int (n : ℤ) : nearestEven (n : K) = n := by
  unfold nearestEven
  rw [if_pos]
  · simp
  · left; simp

theorem nearestEven_mono {x y : K} (h : x ≤ y) : nearestEven x ≤ nearestEven y := by
  have hf := Int.floor_mono h
  rcases hf.lt_or_eq with hlt | heq
  · have := nearestEven_le_floor x
    have := nearestEven_ge_floor y
    omega
  · have hfr : Int.fract x ≤ Int.fract y := by
      unfold Int.fract; rw [heq]; linarith
    unfold nearestEven
    rw [heq]
    by_cases hy : Int.fract y < 1 / 2 ∨ Int.fract y = 1 / 2 ∧ ⌊y⌋ % 2 = 0
    · rw [if_pos hy, if_pos]
      rcases hy with hy | ⟨hy, he⟩
      · left; linarith
      · rcases hfr.lt_or_eq with h1 | h1
        · left; linarith
        · right; exact ⟨by rw [h1, hy], he⟩
    · rw [if_neg hy]; split <;> omega

theorem abs_sub_nearestEven (x : K) : |(nearestEven x : K) - x| ≤ 1 / 2 := by
  have h1 : x - ⌊x⌋ = Int.fract x := rfl
  have h0 := Int.fract_nonneg x
  have h2 := Int.fract_lt_one x
  unfold nearestEven
  split
  · rename_i h
    rw [abs_le]
    have : Int.fract x ≤ 1 / 2 := by rcases h with h | h; exacts [h.le, h.1.le]
    constructor <;> linarith
  · rename_i h
    have : 1 / 2 ≤ Int.fract x := by
      by_contra hc; exact h (Or.inl (not_le.1 hc))
    push_cast
    rw [abs_le]
    constructor <;> linarith

theorem nearestEven_neg (x : K) : nearestEven (-x) = -nearestEven x := by
  rcases eq_or_ne (Int.fract x) 0 with h | h
  · have e : x = (⌊x⌋ : K) := by have := Int.self_sub_floor x; rw [h] at this; linarith
    generalize ⌊x⌋ = n at e
    subst e
    rw [← Int.cast_neg, nearestEven_int, nearestEven_int]
  · have hf : ⌊-x⌋ = -⌊x⌋ - 1 := by
      have h0 : 0 < Int.fract x := lt_of_le_of_ne (Int.fract_nonneg x) (Ne.symm h)
      have h2 := Int.fract_lt_one x
      have h1 : x - ⌊x⌋ = Int.fract x := rfl
      rw [Int.floor_eq_iff]; push_cast; constructor <;> linarith
    have hfr : Int.fract (-x) = 1 - Int.fract x := Int.fract_neg h
    unfold nearestEven
    rw [hf, hfr]
    rcases lt_trichotomy (Int.fract x) (1 / 2) with h3 | h3 | h3
    · rw [if_pos (Or.inl h3 : Int.fract x < 1 / 2 ∨ _), if_neg]
      · omega
      · rintro (h4 | h4)
        · linarith
        · linarith [h4.1]
    · rw [h3]
      have h5 : (1 - 1 / 2 : K) = 1 / 2 := by norm_num
      have h6 : ¬ (1 / 2 : K) < 1 / 2 := lt_irrefl _
      simp only [h5, h6, false_or, true_and]
      split <;> split <;> omega
    · have h5 : ¬ (Int.fract x < 1 / 2 ∨ Int.fract x = 1 / 2 ∧ ⌊x⌋ % 2 = 0) := by
        rintro (h4 | h4)
        · linarith
        · linarith [h4.1]
      rw [if_neg h5, if_pos (Or.inl (by linarith))]
      omega

theorem nearestEven_eq_zero {x : K} (h : nearestEven x = 0) : |x| ≤ 1 / 2 := by
  have := abs_sub_nearestEven x
  rw [h] at this
  simpa using this

/-! ### Rounding without overflow -/

variable {p : ℕ} {emin : ℤ}

theorem two_zpow_pos (e : ℤ) : (0 : K) < 2 ^ e := zpow_pos two_pos e

theorem spacing_pos (x : K) : 0 < spacing p emin x := two_zpow_pos _

theorem spacing_neg (x : K) : spacing p emin (-x) = spacing p emin x := by unfold spacing; rw [abs_neg]

theorem roundUnbounded_neg (x : K) : roundUnbounded p emin (-x) = -roundUnbounded p emin x := by
  unfold roundUnbounded; rw [spacing_neg, neg_div, nearestEven_neg]; push_cast; ring

theorem roundUnbounded_zero : roundUnbounded p emin (0 : K) = 0 := by
  unfold roundUnbounded
  have := nearestEven_int (K := K) 0
  rw [zero_div]; push_cast at this; rw [this]; simp

theorem abs_roundUnbounded_sub (x : K) : |roundUnbounded p emin x - x| ≤ spacing p emin x / 2 := by
  have hq := spacing_pos (p := p) (emin := emin) x
  have h := abs_sub_nearestEven (x / spacing p emin x)
  have e : roundUnbounded p emin x - x = ((nearestEven (x / spacing p emin x) : K) - x / spacing p emin x) *
      spacing p emin x := by
    unfold roundUnbounded; field_simp
  rw [e, abs_mul, abs_of_pos hq]
  nlinarith

/-- A multiple of the spacing stays a bound. -/
theorem roundUnbounded_le_of_le {x : K} {m : ℤ} (h : x ≤ m * spacing p emin x) :
    roundUnbounded p emin x ≤ m * spacing p emin x := by
  have hq := spacing_pos (p := p) (emin := emin) x
  unfold roundUnbounded
  apply mul_le_mul_of_nonneg_right _ hq.le
  have := nearestEven_mono (x := x / spacing p emin x) (y := (m : K)) (by rwa [div_le_iff₀ hq])
  rw [nearestEven_int] at this
  exact_mod_cast this

theorem le_roundUnbounded_of_le {x : K} {m : ℤ} (h : m * spacing p emin x ≤ x) :
    m * spacing p emin x ≤ roundUnbounded p emin x := by
  have hq := spacing_pos (p := p) (emin := emin) x
  unfold roundUnbounded
  apply mul_le_mul_of_nonneg_right _ hq.le
  have := nearestEven_mono (x := (m : K)) (y := x / spacing p emin x) (by rwa [le_div_iff₀ hq])
  rw [nearestEven_int] at this
  exact_mod_cast this

theorem roundUnbounded_of_multiple {x : K} {m : ℤ} (h : x = m * spacing p emin x) :
    roundUnbounded p emin x = x :=
  le_antisymm ((roundUnbounded_le_of_le h.le).trans h.ge) (h.le.trans (le_roundUnbounded_of_le h.ge))

/-- The exponent used for `x`. -/
def expo (emin : ℤ) (x : K) : ℤ := max emin (Int.log 2 |x|)

theorem spacing_eq (x : K) : spacing p emin x = 2 ^ (expo emin x - p + 1) := rfl

theorem abs_lt_expo (x : K) : |x| < 2 ^ (expo emin x + 1) := by
  have := Int.lt_zpow_succ_log_self (b := 2) (by norm_num) |x|
  refine this.trans_le ?_
  push_cast
  exact zpow_le_zpow_right₀ one_le_two (by unfold expo; omega)

theorem expo_le_abs {x : K} (hx : x ≠ 0) (h : emin < expo emin x) : (2 : K) ^ expo emin x ≤ |x| := by
  have := Int.zpow_log_le_self (b := 2) (by norm_num) (abs_pos.2 hx)
  have e : expo emin x = Int.log 2 |x| := by unfold expo at h ⊢; omega
  rw [e]
  exact_mod_cast this

theorem expo_of_abs_lt {x : K} (hx : x ≠ 0) {e : ℤ} (he : emin ≤ e) (h : |x| < 2 ^ (e + 1)) : expo emin x ≤ e := by
  have := (Int.lt_zpow_iff_log_lt (b := 2) (by norm_num) (abs_pos.2 hx) (x := e + 1)).1 (by exact_mod_cast h)
  unfold expo; omega

theorem pow_eq_mul_spacing (hp : 1 ≤ p) {e f : ℤ} (h : e ≤ f + 1) : ∃ m : ℤ, (2 : K) ^ (f + 1) = m * 2 ^ (e - p + 1) := by
  refine ⟨2 ^ (f - e + p).toNat, ?_⟩
  push_cast
  rw [← zpow_natCast, ← zpow_add₀ two_ne_zero]
  congr 1
  rw [Int.toNat_of_nonneg (by omega)]; ring

theorem roundUnbounded_mono_pos (hp : 1 ≤ p) {x y : K} (hx : 0 < x) (h : x ≤ y) :
    roundUnbounded p emin x ≤ roundUnbounded p emin y := by
  have hy : 0 < y := hx.trans_le h
  have he : expo emin x ≤ expo emin y := by
    have := Int.log_mono_right (b := 2) (abs_pos.2 hx.ne') (by rwa [abs_of_pos hx, abs_of_pos hy] : |x| ≤ |y|)
    unfold expo; omega
  rcases he.lt_or_eq with hlt | heq
  · have hey : emin < expo emin y := lt_of_le_of_lt (le_max_left _ _) hlt
    have h1 : (2 : K) ^ expo emin y ≤ y := by have := expo_le_abs hy.ne' hey; rwa [abs_of_pos hy] at this
    have h2 : x ≤ 2 ^ (expo emin x + 1) := by
      have := abs_lt_expo (emin := emin) x; rw [abs_of_pos hx] at this; exact this.le
    obtain ⟨m, hm⟩ := pow_eq_mul_spacing (K := K) hp (e := expo emin x) (f := expo emin x) (by omega)
    obtain ⟨m', hm'⟩ := pow_eq_mul_spacing (K := K) hp (e := expo emin y) (f := expo emin y - 1) (by omega)
    rw [sub_add_cancel] at hm'
    have a : roundUnbounded p emin x ≤ 2 ^ (expo emin x + 1) := by
      rw [hm, ← spacing_eq]; exact roundUnbounded_le_of_le (by rw [spacing_eq, ← hm]; exact h2)
    have b : (2 : K) ^ expo emin y ≤ roundUnbounded p emin y := by
      rw [hm', ← spacing_eq]; exact le_roundUnbounded_of_le (by rw [spacing_eq, ← hm']; exact h1)
    exact a.trans ((zpow_le_zpow_right₀ one_le_two (by omega)).trans b)
  · have hs : spacing p emin x = spacing p emin y := by rw [spacing_eq, spacing_eq, heq]
    unfold roundUnbounded
    rw [hs]
    have hq := spacing_pos (p := p) (emin := emin) y
    apply mul_le_mul_of_nonneg_right _ hq.le
    exact_mod_cast nearestEven_mono (div_le_div_of_nonneg_right h hq.le)

theorem roundUnbounded_nonneg {x : K} (h : 0 ≤ x) : 0 ≤ roundUnbounded p emin x := by
  have := le_roundUnbounded_of_le (p := p) (emin := emin) (x := x) (m := 0) (by simpa using h)
  simpa using this

theorem roundUnbounded_mono (hp : 1 ≤ p) {x y : K} (h : x ≤ y) :
    roundUnbounded p emin x ≤ roundUnbounded p emin y := by
  rcases lt_or_ge 0 x with hx | hx
  · exact roundUnbounded_mono_pos hp hx h
  · have hx' : roundUnbounded p emin x ≤ 0 := by
      have := roundUnbounded_nonneg (p := p) (emin := emin) (x := -x) (by linarith)
      rw [roundUnbounded_neg] at this; linarith
    rcases le_or_gt 0 y with hy | hy
    · exact hx'.trans (roundUnbounded_nonneg hy)
    · have := roundUnbounded_mono_pos (p := p) (emin := emin) hp (x := -y) (y := -x) (by linarith) (by linarith)
      rw [roundUnbounded_neg, roundUnbounded_neg] at this
      linarith

/-- Numbers with at most `p` bits, or the next power of two, are not changed. -/
theorem roundUnbounded_of_form (hp : 1 ≤ p) {x : K} {m e : ℤ} (he : emin ≤ e) (hx : x = m * 2 ^ (e - p + 1))
    (hb : |x| ≤ 2 ^ (e + 1)) : roundUnbounded p emin x = x := by
  rcases eq_or_ne x 0 with h0 | h0
  · rw [h0, roundUnbounded_zero]
  rcases hb.lt_or_eq with hlt | heq
  · have h1 := expo_of_abs_lt h0 he hlt
    apply roundUnbounded_of_multiple (m := m * 2 ^ (e - expo emin x).toNat)
    rw [spacing_eq]; push_cast
    rw [← zpow_natCast, Int.toNat_of_nonneg (by omega), mul_assoc, ← zpow_add₀ two_ne_zero, hx]
    congr 2; rw [← hx]; ring
  · have h1 : expo emin x = e + 1 := by
      have hl : Int.log 2 |x| = e + 1 := by
        rw [heq]; exact_mod_cast Int.log_zpow (R := K) (b := 2) (by norm_num) (e + 1)
      unfold expo; omega
    obtain ⟨k, hk⟩ := pow_eq_mul_spacing (K := K) hp (e := e + 1) (f := e) le_rfl
    rcases abs_choice x with h2 | h2
    · apply roundUnbounded_of_multiple (m := k)
      rw [spacing_eq, h1, ← hk, ← heq, h2]
    · apply roundUnbounded_of_multiple (m := -k)
      rw [spacing_eq, h1]; push_cast; rw [neg_mul, ← hk, ← heq, h2]; ring

theorem roundUnbounded_form (hp : 1 ≤ p) (x : K) : ∃ m e : ℤ, emin ≤ e ∧ roundUnbounded p emin x = m * 2 ^ (e - p + 1) ∧
    |roundUnbounded p emin x| ≤ 2 ^ (e + 1) := by
  refine ⟨nearestEven (x / spacing p emin x), expo emin x, le_max_left _ _, rfl, ?_⟩
  have h := abs_lt_expo (emin := emin) x
  obtain ⟨k, hk⟩ := pow_eq_mul_spacing (K := K) hp (e := expo emin x) (f := expo emin x) (by omega)
  rw [abs_lt] at h
  rw [abs_le]
  constructor
  · have := le_roundUnbounded_of_le (p := p) (emin := emin) (x := x) (m := -k)
      (by rw [spacing_eq]; push_cast; rw [neg_mul, ← hk]; linarith)
    rw [spacing_eq] at this; push_cast at this; rw [neg_mul, ← hk] at this; exact this
  · have := roundUnbounded_le_of_le (p := p) (emin := emin) (x := x) (m := k)
      (by rw [spacing_eq, ← hk]; linarith)
    rw [spacing_eq, ← hk] at this; exact this

theorem roundUnbounded_idem (hp : 1 ≤ p) (x : K) :
    roundUnbounded p emin (roundUnbounded p emin x) = roundUnbounded p emin x := by
  obtain ⟨m, e, he, h1, h2⟩ := roundUnbounded_form (emin := emin) hp x
  exact roundUnbounded_of_form hp he h1 h2

/-- Machine numbers are multiples of the smallest positive one. -/
theorem multiple_of_machine (hp : 1 ≤ p) {x : K} (h : roundUnbounded p emin x = x) :
    ∃ m : ℤ, x = m * 2 ^ (emin - p + 1) := by
  obtain ⟨m, e, he, h1, -⟩ := roundUnbounded_form (emin := emin) hp x
  rw [h] at h1
  refine ⟨m * 2 ^ (e - emin).toNat, ?_⟩
  push_cast
  rw [← zpow_natCast, Int.toNat_of_nonneg (by omega), mul_assoc, ← zpow_add₀ two_ne_zero, h1]
  congr 2; ring

/-- Multiples of the smallest positive machine number below the normal range are machine numbers. -/
theorem roundUnbounded_small {x : K} {m : ℤ} (hx : x = m * 2 ^ (emin - p + 1))
    (hb : |x| < 2 ^ (emin + 1)) : roundUnbounded p emin x = x := by
  rcases eq_or_ne x 0 with h0 | h0
  · rw [h0, roundUnbounded_zero]
  · have h1 := expo_of_abs_lt h0 le_rfl hb
    have h2 : expo emin x = emin := le_antisymm h1 (le_max_left _ _)
    exact roundUnbounded_of_multiple (m := m) (by rw [spacing_eq, h2]; exact hx)

theorem spacing_le {x : K} (h : 2 ^ emin ≤ |x|) : spacing p emin x ≤ |x| * 2 ^ (1 - p : ℤ) := by
  have hx : x ≠ 0 := by rintro rfl; rw [abs_zero] at h; exact absurd h (not_le.2 (two_zpow_pos _))
  have h1 : (2 : K) ^ expo emin x ≤ |x| := by
    rcases (le_max_left emin (Int.log 2 |x|)).lt_or_eq with h2 | h2
    · exact expo_le_abs hx h2
    · unfold expo; rw [← h2]; exact h
  rw [spacing_eq, show expo emin x - p + 1 = expo emin x + (1 - p) by ring, zpow_add₀ two_ne_zero]
  exact mul_le_mul_of_nonneg_right h1 (two_zpow_pos _).le

theorem half_two_zpow (e : ℤ) : (2 : K) ^ (e + 1) / 2 = 2 ^ e := by
  rw [zpow_add_one₀ two_ne_zero]; field_simp

theorem abs_roundUnbounded_sub_normal {x : K} (h : 2 ^ emin ≤ |x|) :
    |roundUnbounded p emin x - x| ≤ 2 ^ (-p : ℤ) * |x| := by
  refine (abs_roundUnbounded_sub x).trans ?_
  have h1 := spacing_le (p := p) h
  have h2 := half_two_zpow (K := K) (-p)
  rw [show (-p : ℤ) + 1 = 1 - p by ring] at h2
  rw [← h2]; linarith

theorem abs_roundUnbounded_sub_all (x : K) :
    |roundUnbounded p emin x - x| ≤ 2 ^ (-p : ℤ) * |x| + 2 ^ (emin - p) := by
  have hpos := two_zpow_pos (K := K) (emin - p)
  rcases le_or_gt (2 ^ emin) |x| with h | h
  · have := abs_roundUnbounded_sub_normal (p := p) h
    linarith
  · have hn : 0 ≤ (2 : K) ^ (-p : ℤ) * |x| := mul_nonneg (two_zpow_pos _).le (abs_nonneg _)
    rcases eq_or_ne x 0 with h0 | h0
    · subst h0
      rw [roundUnbounded_zero, sub_zero, abs_zero]; linarith [abs_zero (α := K) ▸ hn]
    · refine (abs_roundUnbounded_sub x).trans ?_
      have h1 := expo_of_abs_lt h0 le_rfl (h.trans (zpow_lt_zpow_right₀ one_lt_two (by omega : emin < emin + 1)))
      have h2 : expo emin x = emin := le_antisymm h1 (le_max_left _ _)
      rw [spacing_eq, h2, half_two_zpow]
      linarith

/-- The distance between machine numbers, relative to the smaller one. -/
theorem machine_gap (hp : 1 ≤ p) {d r : K} (hd : roundUnbounded p emin d = d) (hr : roundUnbounded p emin r = r)
    (h0 : 0 < d) (h : d < r) : d ≤ (2 ^ p - 1) * (r - d) := by
  have hs := spacing_pos (p := p) (emin := emin) d
  have ed : d = nearestEven (d / spacing p emin d) * spacing p emin d := hd.symm
  have er : r = nearestEven (r / spacing p emin r) * spacing p emin r := hr.symm
  have he : expo emin d ≤ expo emin r := by
    have := Int.log_mono_right (b := 2) (abs_pos.2 h0.ne')
      (by rw [abs_of_pos h0, abs_of_pos (h0.trans h)]; exact h.le : |d| ≤ |r|)
    unfold expo; omega
  have hsr : spacing p emin r = ((2 ^ (expo emin r - expo emin d).toNat : ℤ) : K) * spacing p emin d := by
    rw [spacing_eq, spacing_eq]; push_cast
    rw [← zpow_natCast, Int.toNat_of_nonneg (by omega), ← zpow_add₀ two_ne_zero]
    congr 1; ring
  have hlt : d < 2 ^ p * spacing p emin d := by
    have := abs_lt_expo (emin := emin) d
    rw [abs_of_pos h0] at this
    refine this.trans_le (le_of_eq ?_)
    rw [spacing_eq, ← zpow_natCast, ← zpow_add₀ two_ne_zero]
    congr 1; ring
  obtain ⟨k, er⟩ : ∃ k : ℤ, r = k * spacing p emin d :=
    ⟨nearestEven (r / spacing p emin r) * 2 ^ (expo emin r - expo emin d).toNat, by
      rw [Int.cast_mul, mul_assoc, ← hsr]; exact er⟩
  generalize nearestEven (d / spacing p emin d) = m at ed
  generalize spacing p emin d = s at *
  have hmk : m < k := by
    rw [ed, er] at h
    exact_mod_cast lt_of_mul_lt_mul_right h hs.le
  have hm : m + 1 ≤ 2 ^ p := by
    rw [ed] at hlt
    have : (m : K) < ((2 ^ p : ℤ) : K) := by push_cast; exact lt_of_mul_lt_mul_right hlt hs.le
    have := Int.cast_lt.1 this
    omega
  have hm' : (m : K) ≤ 2 ^ p - 1 := by
    have : ((m + 1 : ℤ) : K) ≤ ((2 ^ p : ℤ) : K) := Int.cast_le.2 hm
    push_cast at this; linarith
  have hk' : (1 : K) ≤ (k : K) - m := by
    have : ((m + 1 : ℤ) : K) ≤ (k : K) := Int.cast_le.2 (by omega)
    push_cast at this; linarith
  have hpp : (0 : K) ≤ 2 ^ p - 1 := by
    have : (1 : K) ≤ 2 ^ p := one_le_pow₀ one_le_two
    linarith
  rw [er, ed, ← sub_mul]
  calc (m : K) * s ≤ (2 ^ p - 1) * s := mul_le_mul_of_nonneg_right hm' hs.le
    _ ≤ (2 ^ p - 1) * (((k : K) - m) * s) := mul_le_mul_of_nonneg_left (by nlinarith) hpp

/-- The squares of different machine numbers are rounded to different numbers, unless they underflow. -/
theorem roundUnbounded_sq_lt (hp : 1 ≤ p) (hemin : emin ≤ 0) {d r : K} (hd : roundUnbounded p emin d = d)
    (hr : roundUnbounded p emin r = r) (h0 : 0 ≤ d) (h : d < r) (hrr : 2 ^ (emin + 1) ≤ r * r) :
    roundUnbounded p emin (d * d) < roundUnbounded p emin (r * r) := by
  have hpos : 0 < r * r := (two_zpow_pos _).trans_le hrr
  have hle : (2 : K) ^ emin < 2 ^ (emin + 1) := zpow_lt_zpow_right₀ one_lt_two (by omega)
  have hpow : roundUnbounded p emin ((2 : K) ^ (emin + 1)) = 2 ^ (emin + 1) := by
    refine roundUnbounded_of_form hp (m := 2 ^ p) (e := emin) le_rfl ?_ (by rw [abs_of_pos (two_zpow_pos _)])
    push_cast
    rw [← zpow_natCast, ← zpow_add₀ two_ne_zero]; congr 1; ring
  have hpow' : roundUnbounded p emin ((2 : K) ^ emin) = 2 ^ emin := by
    refine roundUnbounded_of_form hp (m := 2 ^ (p - 1)) (e := emin) le_rfl ?_
      (by rw [abs_of_pos (two_zpow_pos _)]; exact hle.le)
    push_cast
    rw [← zpow_natCast, ← zpow_add₀ two_ne_zero]; congr 1; omega
  rcases lt_or_ge (d * d) (2 ^ emin) with hs | hs
  · have h1 := roundUnbounded_mono (emin := emin) hp hs.le
    have h2 := roundUnbounded_mono (emin := emin) hp hrr
    rw [hpow'] at h1; rw [hpow] at h2
    linarith
  · have hd0 : 0 < d := by
      rcases h0.lt_or_eq with h1 | h1
      · exact h1
      · rw [← h1, mul_zero] at hs; exact absurd hs (not_le.2 (two_zpow_pos _))
    have hg := machine_gap hp hd hr hd0 h
    have e1 := abs_roundUnbounded_sub_normal (p := p) (emin := emin) (x := d * d)
      (by rw [abs_of_pos (mul_pos hd0 hd0)]; exact hs)
    have e2 := abs_roundUnbounded_sub_normal (p := p) (emin := emin) (x := r * r)
      (by rw [abs_of_pos hpos]; linarith)
    rw [abs_of_pos (mul_pos hd0 hd0), abs_le] at e1
    rw [abs_of_pos hpos, abs_le] at e2
    have hM : (2 : K) ≤ 2 ^ p := by
      calc (2 : K) = 2 ^ 1 := (pow_one _).symm
        _ ≤ _ := pow_le_pow_right₀ one_le_two hp
    have hu : (2 : K) ^ (-p : ℤ) = 1 / 2 ^ p := by rw [zpow_neg, zpow_natCast, one_div]
    rw [hu] at e1 e2
    set M : K := 2 ^ p
    have hMr : d * M ≤ r * (M - 1) := by linarith
    have hsq : (d * M) * (d * M) ≤ (r * (M - 1)) * (r * (M - 1)) :=
      mul_self_le_mul_self (mul_nonneg h0 (by linarith)) hMr
    have key : d * d * (M + 1) < r * r * (M - 1) := by
      have h3 : d * d * (M + 1) * (M - 1) < r * r * (M - 1) * (M - 1) := by
        have : 0 < d * d := mul_pos hd0 hd0
        nlinarith
      exact lt_of_mul_lt_mul_right h3 (by linarith)
    have hMp : 0 < M := by linarith
    have k1 : d * d + 1 / M * (d * d) = d * d * (M + 1) / M := by field_simp
    have k2 : r * r - 1 / M * (r * r) = r * r * (M - 1) / M := by field_simp
    have k3 : d * d * (M + 1) / M < r * r * (M - 1) / M := div_lt_div_of_pos_right key hMp
    linarith [e1.2, e2.1]

/-! ### With overflow -/

theorem binary_fin {emax : ℤ} {x y : K} (h : binary p emin emax x = .fin y) :
    y = roundUnbounded p emin x ∧ |y| < 2 ^ (emax + 1) := by
  unfold binary at h
  simp only at h
  split at h
  · exact absurd h (by simp)
  · split at h
    · exact absurd h (by simp)
    · rename_i h1 h2
      injection h with h
      exact ⟨h.symm, by rw [← h, abs_lt]; exact ⟨not_le.1 h2, not_le.1 h1⟩⟩

theorem binary_of_lt {emax : ℤ} {x : K} (h : |roundUnbounded p emin x| < 2 ^ (emax + 1)) :
    binary p emin emax x = .fin (roundUnbounded p emin x) := by
  rw [abs_lt] at h
  unfold binary
  simp only
  rw [if_neg (not_le.2 h.2), if_neg (not_le.2 h.1)]

theorem machine_binary_iff {emax : ℤ} {x : K} :
    Machine (binary p emin emax) x ↔ roundUnbounded p emin x = x ∧ |x| < 2 ^ (emax + 1) := by
  constructor
  · intro h
    have := binary_fin h
    exact ⟨this.1.symm, this.2⟩
  · rintro ⟨h1, h2⟩
    have := binary_of_lt (p := p) (emin := emin) (emax := emax) (x := x) (by rwa [h1])
    rw [h1] at this; exact this

theorem rounding_binary (hp : 1 ≤ p) {emax : ℤ} (h0 : emin ≤ 0) (h1 : 0 ≤ emax) :
    Rounding (K := K) (binary p emin emax) where
  notNan x := by unfold binary; simp only; split <;> [simp; split <;> simp]
  mono x y h := by
    have hm := roundUnbounded_mono (emin := emin) hp h
    have hP := two_zpow_pos (K := K) (emax + 1)
    unfold binary; simp only
    generalize roundUnbounded p emin x = a at *
    generalize roundUnbounded p emin y = b at *
    by_cases ha : 2 ^ (emax + 1) ≤ a
    · rw [if_pos ha, if_pos (ha.trans hm)]; trivial
    · rw [if_neg ha]
      by_cases hb : 2 ^ (emax + 1) ≤ b
      · rw [if_pos hb]; split <;> trivial
      · rw [if_neg hb]
        by_cases ha' : a ≤ -2 ^ (emax + 1)
        · rw [if_pos ha']; split <;> trivial
        · rw [if_neg ha', if_neg (fun hc => ha' (hm.trans hc))]; exact hm
  zero := machine_binary_iff.2 ⟨roundUnbounded_zero, by rw [abs_zero]; exact two_zpow_pos _⟩
  one := by
    refine machine_binary_iff.2 ⟨?_, ?_⟩
    · refine roundUnbounded_of_form hp (m := 2 ^ (p - 1)) (e := 0) h0 ?_ ?_
      · push_cast
        rw [← zpow_natCast, ← zpow_add₀ two_ne_zero]
        rw [show ((p - 1 : ℕ) : ℤ) + (0 - p + 1) = 0 by omega, zpow_zero]
      · rw [abs_one]; norm_num
    · rw [abs_one]
      calc (1 : K) = 2 ^ (0 : ℤ) := (zpow_zero _).symm
        _ < _ := zpow_lt_zpow_right₀ one_lt_two (by omega)
  neg x := by
    have hP := two_zpow_pos (K := K) (emax + 1)
    unfold binary; simp only
    rw [roundUnbounded_neg]
    generalize roundUnbounded p emin x = a
    by_cases ha : 2 ^ (emax + 1) ≤ a
    · rw [if_pos ha, if_neg (by linarith), if_pos (by linarith)]; rfl
    · rw [if_neg ha]
      by_cases hb : a ≤ -2 ^ (emax + 1)
      · rw [if_pos hb, if_pos (by linarith)]; rfl
      · rw [if_neg hb, if_neg (by linarith), if_neg (by linarith)]; rfl
  idem x y h := by
    have := binary_fin h
    refine machine_binary_iff.2 ⟨?_, this.2⟩
    rw [this.1]; exact roundUnbounded_idem hp x
  gradual x y hx hy h := by
    obtain ⟨m, hm⟩ := multiple_of_machine hp (machine_binary_iff.1 hx).1
    obtain ⟨k, hk⟩ := multiple_of_machine hp (machine_binary_iff.1 hy).1
    have hr := (binary_fin h).1
    have hxy : x - y = (m - k : ℤ) * 2 ^ (emin - p + 1) := by rw [hm, hk]; push_cast; ring
    rcases lt_or_ge |x - y| (2 ^ (emin + 1)) with hs | hs
    · have := roundUnbounded_small hxy hs
      rw [this] at hr; linarith
    · have h2 : (2 : K) ^ emin ≤ |x - y| := (zpow_le_zpow_right₀ one_le_two (by omega)).trans hs
      have h3 := abs_roundUnbounded_sub_normal (p := p) h2
      rw [← hr, zero_sub, abs_neg] at h3
      have h4 : (2 : K) ^ (-p : ℤ) < 1 := by
        calc (2 : K) ^ (-p : ℤ) < 2 ^ (0 : ℤ) := zpow_lt_zpow_right₀ one_lt_two (by omega)
          _ = 1 := zpow_zero _
      have h5 : 0 < |x - y| := (two_zpow_pos _).trans_le h2
      nlinarith

theorem errorBound_binary (hp : 1 ≤ p) {emax : ℤ} :
    ErrorBound (K := K) (binary p emin emax) (2 ^ (-p : ℤ)) (2 ^ (emin - p)) where
  all x y h := by rw [(binary_fin h).1]; exact abs_roundUnbounded_sub_all x
  sum x y s hx hy h := by
    obtain ⟨m, hm⟩ := multiple_of_machine hp (machine_binary_iff.1 hx).1
    obtain ⟨k, hk⟩ := multiple_of_machine hp (machine_binary_iff.1 hy).1
    have hxy : x + y = (m + k : ℤ) * 2 ^ (emin - p + 1) := by rw [hm, hk]; push_cast; ring
    rw [(binary_fin h).1]
    rcases lt_or_ge |x + y| (2 ^ (emin + 1)) with hs | hs
    · rw [roundUnbounded_small hxy hs, sub_self, abs_zero]
      exact mul_nonneg (two_zpow_pos _).le (abs_nonneg _)
    · exact abs_roundUnbounded_sub_normal ((zpow_le_zpow_right₀ one_le_two (by omega)).trans hs)

theorem rounding_float64 : Rounding (K := K) float64 := rounding_binary (by norm_num) (by norm_num) (by norm_num)

theorem errorBound_float64 : ErrorBound (K := K) float64 (2 ^ (-53 : ℤ)) (2 ^ (-1075 : ℤ)) := by
  have := errorBound_binary (K := K) (p := 53) (emin := -1022) (emax := 1023) (by norm_num)
  exact this

end
end Dreimac
