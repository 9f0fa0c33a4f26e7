import Mathlib.Analysis.SpecialFunctions.Trigonometric.Bounds
import Mathlib.Tactic.IntervalCases
import Mathlib.Tactic.LinearCombination
import Mathlib.Tactic.Positivity
import Verif.Model.Plotting

/-!
# Properties of `PlotUtils` (C80, C81, C87)
-/

namespace Dreimac

open Real

noncomputable section

/-! ### Minimum and maximum -/

/-- `m` is the least value of `f` on `S`. -/
def IsMinOf {α : Type} (S : Set α) (f : α → ℝ) (m : ℝ) : Prop := (∃ a ∈ S, f a = m) ∧ ∀ a ∈ S, m ≤ f a

/-- `m` is the greatest value of `f` on `S`. -/
def IsMaxOf {α : Type} (S : Set α) (f : α → ℝ) (m : ℝ) : Prop := (∃ a ∈ S, f a = m) ∧ ∀ a ∈ S, f a ≤ m

theorem foldl_min_range (n : ℕ) (hn : 0 < n) (f : ℕ → ℝ) :
    IsMinOf {k | k < n} f ((List.range n).foldl (fun a k => min a (f k)) (f 0)) := by
  have aux : ∀ m, (∀ k < m, (List.range m).foldl (fun a k => min a (f k)) (f 0) ≤ f k) ∧
      (List.range m).foldl (fun a k => min a (f k)) (f 0) ≤ f 0 ∧
      ∃ k, (k < m ∨ k = 0) ∧ f k = (List.range m).foldl (fun a k => min a (f k)) (f 0) := by
    intro m
    induction m with
    | zero => exact ⟨fun k hk => absurd hk (Nat.not_lt_zero k), le_refl _, 0, Or.inr rfl, rfl⟩
    | succ m ih =>
      obtain ⟨h1, h2, k, hk, he⟩ := ih
      rw [List.range_succ, List.foldl_append]
      simp only [List.foldl_cons, List.foldl_nil]
      refine ⟨fun j hj => ?_, (min_le_left _ _).trans h2, ?_⟩
      · rcases Nat.lt_succ_iff_lt_or_eq.mp hj with hj | rfl
        · exact (min_le_left _ _).trans (h1 j hj)
        · exact min_le_right _ _
      · rcases min_choice ((List.range m).foldl (fun a k => min a (f k)) (f 0)) (f m) with h | h
        · exact ⟨k, by rcases hk with h | h <;> omega, by rw [h, he]⟩
        · exact ⟨m, Or.inl (by omega), h.symm⟩
  obtain ⟨h1, -, k, hk, he⟩ := aux n
  exact ⟨⟨k, by rcases hk with h | h <;> simp <;> omega, he⟩, h1⟩

theorem foldl_max_range (n : ℕ) (hn : 0 < n) (f : ℕ → ℝ) :
    IsMaxOf {k | k < n} f ((List.range n).foldl (fun a k => max a (f k)) (f 0)) := by
  have aux : ∀ m, (∀ k < m, f k ≤ (List.range m).foldl (fun a k => max a (f k)) (f 0)) ∧
      f 0 ≤ (List.range m).foldl (fun a k => max a (f k)) (f 0) ∧
      ∃ k, (k < m ∨ k = 0) ∧ f k = (List.range m).foldl (fun a k => max a (f k)) (f 0) := by
    intro m
    induction m with
    | zero => exact ⟨fun k hk => absurd hk (Nat.not_lt_zero k), le_refl _, 0, Or.inr rfl, rfl⟩
    | succ m ih =>
      obtain ⟨h1, h2, k, hk, he⟩ := ih
      rw [List.range_succ, List.foldl_append]
      simp only [List.foldl_cons, List.foldl_nil]
      refine ⟨fun j hj => ?_, h2.trans (le_max_left _ _), ?_⟩
      · rcases Nat.lt_succ_iff_lt_or_eq.mp hj with hj | rfl
        · exact (h1 j hj).trans (le_max_left _ _)
        · exact le_max_right _ _
      · rcases max_choice ((List.range m).foldl (fun a k => max a (f k)) (f 0)) (f m) with h | h
        · exact ⟨k, by rcases hk with h | h <;> omega, by rw [h, he]⟩
        · exact ⟨m, Or.inl (by omega), h.symm⟩
  obtain ⟨h1, -, k, hk, he⟩ := aux n
  exact ⟨⟨k, by rcases hk with h | h <;> simp <;> omega, he⟩, h1⟩

theorem div_mod_set (N m : ℕ) (hm : 0 < m) (p : ℕ × ℕ) :
    (p.1 < N ∧ p.2 < m) → p.1 * m + p.2 < N * m ∧ (p.1 * m + p.2) / m = p.1 ∧ (p.1 * m + p.2) % m = p.2 := by
  rintro ⟨h1, h2⟩
  refine ⟨?_, ?_, ?_⟩
  · calc p.1 * m + p.2 < p.1 * m + m := by omega
      _ = (p.1 + 1) * m := by ring
      _ ≤ N * m := Nat.mul_le_mul_right m h1
  · rw [mul_comm, Nat.mul_add_div hm, Nat.div_eq_of_lt h2, add_zero]
  · rw [mul_comm, Nat.mul_add_mod, Nat.mod_eq_of_lt h2]

theorem arrMin_spec (N m : ℕ) (P : ℕ → ℕ → ℝ) (hN : 0 < N) (hm : 0 < m) :
    ∃ v, arrMin N m P = .ok v ∧ IsMinOf {p : ℕ × ℕ | p.1 < N ∧ p.2 < m} (fun p => P p.1 p.2) v := by
  refine ⟨_, by rw [arrMin, if_neg (by omega)], ?_⟩
  obtain ⟨⟨k, hk, he⟩, h⟩ := foldl_min_range (N * m) (Nat.mul_pos hN hm) fun k => P (k / m) (k % m)
  simp only [Nat.zero_div, Nat.zero_mod] at he h
  refine ⟨⟨(k / m, k % m), ⟨(Nat.div_lt_iff_lt_mul hm).2 hk, Nat.mod_lt _ hm⟩, he⟩, fun p hp => ?_⟩
  obtain ⟨e1, e2, e3⟩ := div_mod_set N m hm p hp
  have := h (p.1 * m + p.2) e1
  rwa [e2, e3] at this

theorem arrMax_spec (N m : ℕ) (P : ℕ → ℕ → ℝ) (hN : 0 < N) (hm : 0 < m) :
    ∃ v, arrMax N m P = .ok v ∧ IsMaxOf {p : ℕ × ℕ | p.1 < N ∧ p.2 < m} (fun p => P p.1 p.2) v := by
  refine ⟨_, by rw [arrMax, if_neg (by omega)], ?_⟩
  obtain ⟨⟨k, hk, he⟩, h⟩ := foldl_max_range (N * m) (Nat.mul_pos hN hm) fun k => P (k / m) (k % m)
  simp only [Nat.zero_div, Nat.zero_mod] at he h
  refine ⟨⟨(k / m, k % m), ⟨(Nat.div_lt_iff_lt_mul hm).2 hk, Nat.mod_lt _ hm⟩, he⟩, fun p hp => ?_⟩
  obtain ⟨e1, e2, e3⟩ := div_mod_set N m hm p hp
  have := h (p.1 * m + p.2) e1
  rwa [e2, e3] at this

/-! ### The grid of patches (C80) -/

theorem mapM_ok_map {α β : Type} (l : List α) (f : α → β) :
    (l.mapM fun a => (Except.ok (f a) : Except PyErr β)) = .ok (l.map f) := by
  induction l with
  | nil => rfl
  | cons a l ih =>
    rw [List.mapM_cons, ih]
    rfl

theorem floor_sqrt_nat (m : ℕ) : ⌊√(m : ℝ)⌋₊ = Nat.sqrt m := Real.nat_floor_real_sqrt_eq_nat_sqrt

theorem ceil_sqrt_spec (N : ℕ) : N ≤ ⌈√(N : ℝ)⌉₊ * ⌈√(N : ℝ)⌉₊ ∧ ∀ g : ℕ, N ≤ g * g → ⌈√(N : ℝ)⌉₊ ≤ g := by
  constructor
  · have h := Nat.le_ceil (√(N : ℝ))
    have h2 : (N : ℝ) ≤ (⌈√(N : ℝ)⌉₊ : ℝ) * ⌈√(N : ℝ)⌉₊ := by
      calc (N : ℝ) = √(N : ℝ) * √(N : ℝ) := (mul_self_sqrt (Nat.cast_nonneg N)).symm
        _ ≤ _ := mul_self_le_mul_self (sqrt_nonneg _) h
    exact_mod_cast h2
  · intro g hg
    rw [Nat.ceil_le]
    have : (N : ℝ) ≤ (g : ℝ) * g := by exact_mod_cast hg
    calc √(N : ℝ) ≤ √((g : ℝ) * g) := sqrt_le_sqrt this
      _ = g := sqrt_mul_self (Nat.cast_nonneg g)

/-- The places of the patches in the grid: artist `i` is drawn at integer coordinates. -/
def GridPos (g N : ℕ) (L : List PatchArtist) : Prop :=
  ∃ pos : ℕ → ℕ × ℕ, (∀ i < N, (pos i).1 < g ∧ (pos i).2 < g) ∧ (∀ i < N, ∀ j < N, pos i = pos j → i = j) ∧
    ∀ i (h : i < L.length), L[i].pos = (((pos i).1 : ℝ), ((pos i).2 : ℝ))

/-- C80: `plot_patches` draws `N` patches of side `d` at distinct integer places of a square grid whose side is the least `g`
with `N ≤ g * g`; patch `i` shows row `i` of `P`, and all patches use the least and greatest entry of `P` as colour limits. -/
theorem C80_grid (N d : ℕ) (hN : 0 < N) (hd : 0 < d) (P : ℕ → ℕ → ℝ) :
    ∃ L g, plotPatches N (d * d) P = .ok L ∧ L.length = N ∧
      (N ≤ g * g ∧ ∀ g', N ≤ g' * g' → g ≤ g') ∧ GridPos g N L ∧
      ∀ i (h : i < L.length),
        (∀ a < d, ∀ b < d, L[i].patch a b = P i (a * d + b)) ∧
        IsMinOf {p : ℕ × ℕ | p.1 < N ∧ p.2 < d * d} (fun p => P p.1 p.2) L[i].vmin ∧
        IsMaxOf {p : ℕ × ℕ | p.1 < N ∧ p.2 < d * d} (fun p => P p.1 p.2) L[i].vmax := by
  obtain ⟨mn, e1, hmn⟩ := arrMin_spec N (d * d) P hN (Nat.mul_pos hd hd)
  obtain ⟨mx, e2, hmx⟩ := arrMax_spec N (d * d) P hN (Nat.mul_pos hd hd)
  have hg := ceil_sqrt_spec N
  set g := ⌈√(N : ℝ)⌉₊ with hgdef
  have hg0 : 0 < g := by
    rcases Nat.eq_zero_or_pos g with h | h
    · rw [h] at hg; omega
    · exact h
  have hfl : ⌊√((d * d : ℕ) : ℝ)⌋₊ = d := by rw [floor_sqrt_nat, Nat.sqrt_eq]
  refine ⟨(List.range N).map fun i => { pos := (((i % g : ℕ) : ℝ), ((i / g : ℕ) : ℝ)), patch := (fun a b => P i (a * d + b)),
                                         vmin := mn, vmax := mx }, g, ?_, by simp, hg, ?_, ?_⟩
  · unfold plotPatches
    simp only
    rw [hfl, ← hgdef, if_neg (by omega)]
    unfold imscatter
    rw [e1, e2]
    simp only [bind, Except.bind, if_true]
    exact mapM_ok_map _ _
  · refine ⟨fun i => (i % g, i / g), fun i hi => ⟨Nat.mod_lt _ hg0, ?_⟩, fun i _ j _ h => ?_, fun i h => ?_⟩
    · exact (Nat.div_lt_iff_lt_mul hg0).2 (by omega)
    · have h1 := congrArg Prod.fst h
      have h2 := congrArg Prod.snd h
      simp only at h1 h2
      rw [← Nat.div_add_mod i g, ← Nat.div_add_mod j g, h1, h2]
    · simp
  · intro i h
    simp only [List.getElem_map, List.getElem_range]
    exact ⟨fun a _ b _ => trivial, hmn, hmx⟩

/-- C80: `plot_patches` raises `ValueError` exactly when there is no patch or pixel or the number of pixels is not a square. -/
theorem C80_error (N m : ℕ) (P : ℕ → ℕ → ℝ) :
    plotPatches N m P = .error .valueError ↔ N = 0 ∨ m = 0 ∨ ∀ d, m ≠ d * d := by
  constructor
  · intro h
    by_contra hc
    push Not at hc
    obtain ⟨hN, hm, d, rfl⟩ := hc
    obtain ⟨L, g, e, -⟩ := C80_grid N d (by omega) (by rcases Nat.eq_zero_or_pos d with h | h; · simp [h] at hm
                                                       · exact h) P
    rw [e] at h
    cases h
  · intro h
    unfold plotPatches
    simp only
    split
    · rfl
    · unfold imscatter
      by_cases h0 : N = 0 ∨ m = 0
      · rw [arrMin, if_pos h0]; rfl
      · have hsq : ∀ d, m ≠ d * d := by
          rcases h with h | h | h
          · exact absurd (Or.inl h) h0
          · exact absurd (Or.inr h) h0
          · exact h
        rw [arrMin, arrMax, if_neg h0, if_neg h0]
        simp only [bind, Except.bind, if_neg (hsq _)]
        obtain ⟨n, rfl⟩ : ∃ n, N = n + 1 := ⟨N - 1, by omega⟩
        rw [List.range_succ_eq_map, List.mapM_cons]
        rfl

/-- The hypotheses of C80 are met: 5 patches of 2 × 2 pixels, on the grid of side 3. -/
example : (∃ L, plotPatches 5 4 (fun i k => i + k) = .ok L ∧ L.length = 5) ∧ plotPatches 5 3 (fun i k => i + k) = .error .valueError := by
  refine ⟨?_, (C80_error 5 3 _).2 (Or.inr (Or.inr fun d => ?_))⟩
  · obtain ⟨L, g, e, h, -⟩ := C80_grid 5 2 (by norm_num) (by norm_num) fun i k => i + k
    exact ⟨L, e, h⟩
  · rcases Nat.lt_or_ge d 2 with h | h
    · interval_cases d <;> norm_num
    · intro he; nlinarith

/-! ### Equal axes (C81) -/

/-- The centre of a pair of limits. -/
def axMid (l : ℝ × ℝ) : ℝ := (l.1 + l.2) / 2

/-- C81: the three new ranges have the same length, which is the greatest of the old lengths; each keeps its centre and
contains the old range (whichever end came first). -/
theorem C81_equal (x y z : ℝ × ℝ) :
    let r := setAxesEqual (x, y, z)
    let len := max (max |x.2 - x.1| |y.2 - y.1|) |z.2 - z.1|
    (r.1.2 - r.1.1 = len ∧ r.2.1.2 - r.2.1.1 = len ∧ r.2.2.2 - r.2.2.1 = len) ∧
      (axMid r.1 = axMid x ∧ axMid r.2.1 = axMid y ∧ axMid r.2.2 = axMid z) ∧
      Set.uIcc x.1 x.2 ⊆ Set.Icc r.1.1 r.1.2 ∧ Set.uIcc y.1 y.2 ⊆ Set.Icc r.2.1.1 r.2.1.2 ∧
      Set.uIcc z.1 z.2 ⊆ Set.Icc r.2.2.1 r.2.2.2 := by
  intro r len
  have e1 : r.1 = ((x.1 + x.2) / 2 - 0.5 * len, (x.1 + x.2) / 2 + 0.5 * len) := rfl
  have e2 : r.2.1 = ((y.1 + y.2) / 2 - 0.5 * len, (y.1 + y.2) / 2 + 0.5 * len) := rfl
  have e3 : r.2.2 = ((z.1 + z.2) / 2 - 0.5 * len, (z.1 + z.2) / 2 + 0.5 * len) := rfl
  have hx : |x.2 - x.1| ≤ len := (le_max_left _ _).trans (le_max_left _ _)
  have hy : |y.2 - y.1| ≤ len := (le_max_right _ _).trans (le_max_left _ _)
  have hz : |z.2 - z.1| ≤ len := le_max_right _ _
  have sub : ∀ l : ℝ × ℝ, |l.2 - l.1| ≤ len →
      Set.uIcc l.1 l.2 ⊆ Set.Icc ((l.1 + l.2) / 2 - 0.5 * len) ((l.1 + l.2) / 2 + 0.5 * len) := by
    intro l hl
    have := abs_le.1 hl
    refine Set.uIcc_subset_Icc ?_ ?_ <;> constructor <;> norm_num <;> linarith
  rw [e1, e2, e3]
  refine ⟨⟨?_, ?_, ?_⟩, ⟨?_, ?_, ?_⟩, sub x hx, sub y hy, sub z hz⟩ <;> simp only [axMid] <;> ring

/-- C81 on a concrete case, one axis inverted. -/
example : setAxesEqual ((0, 4), (3, 1), (5, 5)) = ((0, 4), (0, 4), (3, 7)) := by
  unfold setAxesEqual
  norm_num

/-! ### Colours and boundaries (C87) -/

/-- C87: for a function that is not constant, `plot_rp3_stereo` looks up colour indices in `0, ..., 255`: the least value gets
0, the greatest 255, and the order of the values is kept. -/
theorem C87_colors (n : ℕ) (f : ℕ → ℝ) (hf : ∃ i < n, ∃ j < n, f i ≠ f j) :
    ∃ c, rp3ColorIdx n f = .ok c ∧ (∀ k < n, 0 ≤ c k ∧ c k ≤ 255) ∧ (∀ i < n, ∀ j < n, f i ≤ f j → c i ≤ c j) ∧
      (∀ i < n, (∀ j < n, f i ≤ f j) → c i = 0) ∧ ∀ i < n, (∀ j < n, f j ≤ f i) → c i = 255 := by
  obtain ⟨i0, hi0, j0, hj0, hne⟩ := hf
  have hn : 0 < n := by omega
  obtain ⟨⟨a, ha, hae⟩, hmin⟩ := foldl_min_range n hn f
  set mn := (List.range n).foldl (fun a k => min a (f k)) (f 0) with hmn
  obtain ⟨⟨b, hb, hbe⟩, hmax⟩ := foldl_max_range n hn fun k => f k - mn
  set mx := (List.range n).foldl (fun a k => max a (f k - mn)) (f 0 - mn) with hmx
  simp only [Set.mem_setOf_eq] at ha hb hmin hmax
  have hpos : 0 < mx := by
    have h1 := hmin i0 hi0
    have h2 := hmin j0 hj0
    have h3 := hmax i0 hi0
    have h4 := hmax j0 hj0
    rcases lt_or_gt_of_ne hne with h | h <;> linarith
  refine ⟨fun k => round ((f k - mn) / mx * 255), ?_, ?_, ?_, ?_, ?_⟩
  · unfold rp3ColorIdx vecMin vecMax
    simp only [bind, Except.bind, pure, Except.pure, if_neg hn.ne']
    rfl
  · intro k hk
    have h1 := hmin k hk
    have h2 := hmax k hk
    have hq0 : 0 ≤ (f k - mn) / mx := div_nonneg (by linarith) hpos.le
    have hq1 : (f k - mn) / mx ≤ 1 := (div_le_one hpos).2 h2
    simp only
    rw [round_eq]
    constructor
    · exact Int.floor_nonneg.2 (by linarith)
    · have : ⌊(f k - mn) / mx * 255 + 1 / 2⌋ < 256 := by
        rw [Int.floor_lt]; push_cast; linarith
      omega
  · intro i hi j hj hij
    simp only
    rw [round_eq, round_eq]
    refine Int.floor_le_floor ?_
    have : (f i - mn) / mx ≤ (f j - mn) / mx := by gcongr
    linarith
  · intro i hi h
    have : f i = mn := le_antisymm (hae ▸ h a ha) (hmin i hi)
    simp [this]
  · intro i hi h
    have h1 := h b hb
    have h2 := hmax i hi
    have : f i - mn = mx := le_antisymm h2 (by linarith)
    simp only [this]
    rw [div_self hpos.ne', one_mul]
    exact_mod_cast round_natCast (α := ℝ) 255

/-- C87 is met by a concrete function. -/
example : ∃ c, rp3ColorIdx 3 (fun k => (k : ℝ)) = .ok c ∧ c 0 = 0 ∧ c 2 = 255 := by
  obtain ⟨c, e, -, -, h0, h1⟩ := C87_colors 3 (fun k => (k : ℝ)) ⟨0, by norm_num, 1, by norm_num, by norm_num⟩
  refine ⟨c, e, h0 0 (by norm_num) fun j _ => by simp, h1 2 (by norm_num) fun j hj => ?_⟩
  exact_mod_cast (by omega : j ≤ 2)

/-- C87: the two curves of `plot_2sphere_boundary` are on the unit circles with centres `(0, 0)` and `(2.5, 0)`, and both
are closed. -/
theorem C87_sphere_boundary (k : ℕ) :
    let p := sphereBoundary k
    p.1.1 ^ 2 + p.1.2 ^ 2 = 1 ∧ (p.2.1 - 2.5) ^ 2 + p.2.2 ^ 2 = 1 ∧ sphereBoundary 0 = sphereBoundary 199 := by
  refine ⟨?_, ?_, ?_⟩
  · exact cos_sq_add_sin_sq _
  · unfold sphereBoundary
    simp only
    rw [add_sub_cancel_right]
    exact cos_sq_add_sin_sq _
  · unfold sphereBoundary
    have : (0 : ℝ) + ((199 : ℕ) : ℝ) * ((2 * π - 0) / (200 - 1)) = 2 * π := by push_cast; ring
    simp only [this]
    simp

/-- C87: the wireframe of `plot_3sphere_mesh` is on the unit sphere, its first and last meridian agree, and its first and last
parallel are the poles. -/
theorem C87_mesh (np nm : ℕ) (hp : 2 ≤ np) (hm : 2 ≤ nm) (i j : ℕ) :
    let p := sphereMesh np nm i j
    p.1 ^ 2 + p.2.1 ^ 2 + p.2.2 ^ 2 = 1 ∧ sphereMesh np nm 0 j = sphereMesh np nm (nm - 1) j ∧
      sphereMesh np nm i 0 = (0, 0, 1) ∧ sphereMesh np nm i (np - 1) = (0, 0, -1) := by
  have lend : ∀ (b : ℝ) (n : ℕ), 2 ≤ n → linspace 0 b n (n - 1) = b := by
    intro b n hn
    unfold linspace
    rw [if_neg (by omega), Nat.cast_sub (by omega)]
    have : (n : ℝ) - 1 ≠ 0 := by
      have : (2 : ℝ) ≤ n := by exact_mod_cast hn
      intro h; linarith
    push_cast
    field_simp
    ring
  have lstart : ∀ (b : ℝ) (n : ℕ), linspace 0 b n 0 = 0 := by
    intro b n
    unfold linspace
    simp
  refine ⟨?_, ?_, ?_, ?_⟩
  · unfold sphereMesh
    simp only
    have h1 := cos_sq_add_sin_sq (linspace 0 (2 * π) nm i)
    have h2 := cos_sq_add_sin_sq (linspace 0 π np j)
    linear_combination sin (linspace 0 π np j) ^ 2 * h1 + h2
  · unfold sphereMesh
    rw [lend _ _ hm, lstart]
    simp
  · unfold sphereMesh
    rw [lstart π np]
    simp
  · unfold sphereMesh
    rw [lend _ _ hp]
    simp

end

end Dreimac
