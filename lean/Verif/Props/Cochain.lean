import Mathlib.Data.Fin.VecNotation
import Mathlib.Tactic.Ring
import Verif.Lemmas.SparseToVector
import Verif.Lemmas.Reindex

/-!
# C04–C07, C10: parity, orientation, sparse-to-dense conversion, integer lift, reindexing
-/

namespace Dreimac

open Equiv

/-- **C04.** On the one-line notation of any permutation of `0..n-1`, `parity` returns (in particular terminates
without an index error) the sign of the permutation: `+1` for even ones, `-1` for odd ones. -/
theorem C04_parity_is_sign (n : ℕ) (σ : Perm (Fin n)) :
    parity (List.ofFn fun i => (σ i : ℕ)) = .ok (Perm.sign σ : ℤ) :=
  parity_eq_sign σ

/-- **C04.** The same for lists: every list that is a rearrangement of `0..n-1` is accepted, and the result is `±1`. -/
theorem C04_parity_total (n : ℕ) (l : List ℕ) (hl : l.Perm (List.range n)) :
    ∃ σ : Perm (Fin n), l = (List.ofFn fun i => (σ i : ℕ)) ∧ parity l = .ok (Perm.sign σ : ℤ) := by
  have hlen : l.length = n := by simpa using hl.length_eq
  have hlt : ∀ i (h : i < l.length), l[i] < n := fun i h => by
    have := hl.mem_iff.1 (List.getElem_mem h); simpa using this
  have hnd : l.Nodup := hl.nodup_iff.2 List.nodup_range
  let g : Fin n → Fin n := fun i => ⟨l[(i : ℕ)]'(by rw [hlen]; exact i.2), hlt _ _⟩
  have hg : Function.Injective g := by
    intro i j hij
    have h := congrArg Fin.val hij
    exact Fin.ext ((List.Nodup.getElem_inj_iff hnd).1 h)
  refine ⟨Equiv.ofBijective g (Finite.injective_iff_bijective.1 hg), ?_, ?_⟩
  · apply List.ext_getElem
    · simp [hlen]
    · intro i h1 h2; simp [g]
  · have : l = permList (Equiv.ofBijective g (Finite.injective_iff_bijective.1 hg)) := by
      apply List.ext_getElem
      · simp [permList, hlen]
      · intro i h1 h2; simp [permList, g]
    rw [this]; rw [parity_eq_sign]

example : parity [2, 0, 1, 4, 3] = .ok (-1) := by
  have h := C04_parity_is_sign 5 (List.formPerm [0, 2, 1] * Equiv.swap 3 4)
  have e : (List.ofFn fun i => (((List.formPerm [0, 2, 1] * Equiv.swap 3 4 : Perm (Fin 5)) i : Fin 5) : ℕ)) =
    [2, 0, 1, 4, 3] := by decide
  rw [e] at h; rw [h]; decide

/-- **C05.** For a simplex with pairwise different vertices `f 0, …, f d`, `order_simplex` returns the vertices in
increasing order, and any reordering of the vertices by a permutation `ρ` gives the same sorted simplex with the sign
multiplied by the sign of `ρ`; an already sorted simplex gets sign `+1`. -/
theorem C05_order_simplex (d : ℕ) (f : Fin d → ℕ) (hf : Function.Injective f) :
    ∃ s sign, orderSimplex (List.ofFn f) = .ok (s, sign) ∧ s.Pairwise (· < ·) ∧ s.Perm (List.ofFn f) ∧
      (∀ ρ : Perm (Fin d), orderSimplex (List.ofFn (f ∘ ρ)) = .ok (s, sign * (Perm.sign ρ : ℤ))) ∧
      (StrictMono f → sign = 1) ∧ (sign = 1 ∨ sign = -1) := by
  obtain ⟨τ, hτ⟩ := exists_sorting f hf
  refine ⟨_, _, orderSimplex_ofFn f hf τ hτ, ?_, ofFn_comp_perm f τ, ?_, ?_, ?_⟩
  · rw [List.pairwise_ofFn]; intro i j hij; exact hτ hij
  · intro ρ
    have hτ' : StrictMono ((f ∘ ρ) ∘ (ρ⁻¹ * τ)) := by
      intro i j hij; simpa using hτ hij
    rw [orderSimplex_ofFn (f ∘ ρ) (hf.comp ρ.injective) (ρ⁻¹ * τ) hτ']
    congr 2
    · congr 1; funext i; simp
    · rw [Perm.sign_mul, Perm.sign_inv, mul_comm]; simp
  · intro hmono
    have e := argsort_ofFn f hf 1 (by simpa using hmono)
    rw [argsort_ofFn f hf τ hτ] at e
    have : τ = 1 := by
      have := List.ofFn_injective e
      ext i; exact congrFun this i
    simp [this]
  · rcases Int.units_eq_one_or (Perm.sign τ) with h | h <;> simp [h]

example : Function.Injective (![5, 2, 9] : Fin 3 → ℕ) := by decide

/-- The dense vector's slot for simplex `s` (the index is the one of C01). -/
abbrev slot (N D : ℕ) (s : List ℕ) : ℕ := cnsForward s (cnsTable N D)

/-- **C06.** Sparse to dense conversion.  For every sparse cochain listing pairwise different `d`-simplices on `n`
vertices (each in any vertex order): the conversion succeeds (every store is in bounds), the vector has one slot per
simplex, a simplex listed in an order differing from the increasing one by the permutation `τ` holds the listed value
times the sign of `τ`, and every simplex not listed holds `0`. -/
theorem C06_sparse_to_dense (n d N D : ℕ) (hn : n ≤ N) (hd : d ≤ D) (c : SparseCochain)
    (hvalid : ∀ r ∈ c, r.Valid n d) (hdist : c.Pairwise fun r r' => ¬ r.verts.Perm r'.verts) :
    ∃ vec, sparseCocycleToVector d c (cnsTable N D) n = .ok vec ∧ vec.length = Nat.choose n (d + 1) ∧
      (∀ r ∈ c, ∀ (f : Fin (d + 1) → ℕ) (τ : Perm (Fin (d + 1))), r.verts = List.ofFn f → StrictMono (f ∘ τ) →
        vec[slot N D (List.ofFn (f ∘ τ))]? = some (r.val * (Perm.sign τ : ℤ))) ∧
      (∀ s, IsSimplex n d s → (∀ r ∈ c, ¬ r.verts.Perm s) → vec[slot N D s]? = some 0) := by
  obtain ⟨vec, h1, h2, h3, h4⟩ := fold_storeRow hn hd c hvalid hdist
    (List.replicate (numberOfSimplices d n (cnsTable N D)) 0)
    (by simp only [List.length_replicate, numberOfSimplices]; exact table_read hn (by omega))
  refine ⟨vec, h1, h2, h4, ?_⟩
  intro s hs hns
  rw [h3 s hs hns, List.getElem?_replicate, if_pos]
  have := (C01_simplex_index_bijective N D n d hn hd).mapsTo hs
  simp only [numberOfSimplices]
  rw [table_read hn (by omega)]
  exact this

/-- Every slot is the slot of a simplex, so C06 determines the whole vector. -/
theorem C06_every_slot_is_a_simplex (n d N D : ℕ) (hn : n ≤ N) (hd : d ≤ D) (m : ℕ)
    (hm : m < Nat.choose n (d + 1)) : ∃ s, IsSimplex n d s ∧ slot N D s = m := by
  obtain ⟨s, hs, h⟩ := (C01_simplex_index_bijective N D n d hn hd).surjOn (show m ∈ Set.Iio _ from hm)
  exact ⟨s, hs, h⟩

/-- **C06.** The result does not depend on the order of the rows. -/
theorem C06_row_order_irrelevant (n d N D : ℕ) (hn : n ≤ N) (hd : d ≤ D) (c c' : SparseCochain)
    (hvalid : ∀ r ∈ c, r.Valid n d) (hdist : c.Pairwise fun r r' => ¬ r.verts.Perm r'.verts) (hp : c.Perm c') :
    sparseCocycleToVector d c (cnsTable N D) n = sparseCocycleToVector d c' (cnsTable N D) n := by
  have hvalid' : ∀ r ∈ c', r.Valid n d := fun r hr => hvalid r (hp.mem_iff.2 hr)
  have hdist' : c'.Pairwise fun r r' => ¬ r.verts.Perm r'.verts :=
    (hp.pairwise_iff (fun h h' => h h'.symm)).1 hdist
  obtain ⟨v, h1, h2, h3, h4⟩ := C06_sparse_to_dense n d N D hn hd c hvalid hdist
  obtain ⟨v', h1', h2', h3', h4'⟩ := C06_sparse_to_dense n d N D hn hd c' hvalid' hdist'
  rw [h1, h1']
  congr 1
  apply List.ext_getElem? 
  intro m
  by_cases hm : m < Nat.choose n (d + 1)
  · obtain ⟨s, hs, rfl⟩ := C06_every_slot_is_a_simplex n d N D hn hd m hm
    by_cases hex : ∃ r ∈ c, r.verts.Perm s
    · obtain ⟨r, hr, hrs⟩ := hex
      obtain ⟨f, hrf, hf, hfn⟩ := (hvalid r hr).exists_ofFn
      obtain ⟨τ, hτ⟩ := exists_sorting f hf
      have hss : s = List.ofFn (f ∘ τ) := by
        apply List.Perm.eq_of_pairwise (le := (· < ·)) _ hs.increasing
          (isSimplex_of_sorting hfn hτ).increasing
        · rw [hrf] at hrs; exact hrs.symm.trans (ofFn_comp_perm f τ).symm
        · intro a b _ _ h1 h2; omega
      rw [hss, h3 r hr f τ hrf hτ, h3' r (hp.mem_iff.1 hr) f τ hrf hτ]
    · push Not at hex
      rw [h4 s hs hex, h4' s hs (fun r hr => hex r (hp.mem_iff.2 hr))]
  · rw [List.getElem?_eq_none (by omega), List.getElem?_eq_none (by omega)]

/-- `r'` lists the same oriented simplex as `r` with the same oriented value: the vertices are reordered by some
permutation and the value is multiplied by its sign. -/
def Reoriented (d : ℕ) (r r' : Row) : Prop :=
  ∃ (f : Fin (d + 1) → ℕ) (ρ : Perm (Fin (d + 1))), r.verts = List.ofFn f ∧ r'.verts = List.ofFn (f ∘ ρ) ∧
    r'.val = r.val * (Perm.sign ρ : ℤ)

/-- **C06.** The result does not depend on the orientation in which each simplex is listed. -/
theorem C06_orientation_irrelevant (n d N D : ℕ) (hn : n ≤ N) (hd : d ≤ D) (c c' : SparseCochain)
    (hvalid : ∀ r ∈ c, r.Valid n d) (hre : List.Forall₂ (Reoriented d) c c') :
    sparseCocycleToVector d c (cnsTable N D) n = sparseCocycleToVector d c' (cnsTable N D) n := by
  unfold sparseCocycleToVector
  generalize hvec : List.replicate (numberOfSimplices d n (cnsTable N D)) (0 : ℤ) = vec
  have hlen : vec.length = Nat.choose n (d + 1) := by
    rw [← hvec]; simp only [List.length_replicate, numberOfSimplices]; exact table_read hn (by omega)
  clear hvec
  induction hre generalizing vec with
  | nil => rfl
  | @cons r r' c c' hr _ ih =>
    obtain ⟨f', ρ, hf', hρ, hval⟩ := hr
    obtain ⟨f, hrf, hf, hfn⟩ := (hvalid r (by simp)).exists_ofFn
    have : f' = f := List.ofFn_injective (hf'.symm.trans hrf)
    subst this
    obtain ⟨τ, hτ⟩ := exists_sorting f' hf
    have hτ' : StrictMono ((f' ∘ ρ) ∘ (ρ⁻¹ * τ)) := by
      intro i j hij; simpa using hτ hij
    have hcomp : (f' ∘ ρ) ∘ (ρ⁻¹ * τ) = f' ∘ τ := by funext i; simp
    have e1 := storeRow_ofFn hn hd hrf hf hfn hτ vec hlen
    have e2 := storeRow_ofFn hn hd hρ (hf.comp ρ.injective) (fun i => hfn _) hτ' vec hlen
    have hs : r'.val * ((Perm.sign (ρ⁻¹ * τ) : ℤˣ) : ℤ) = r.val * (Perm.sign τ : ℤ) := by
      rw [hval, Perm.sign_mul, Perm.sign_inv]
      rcases Int.units_eq_one_or (Perm.sign ρ) with h | h <;> simp [h]
    rw [List.foldlM_cons, List.foldlM_cons, e1, e2, hs, hcomp]
    exact ih (fun r'' h => hvalid r'' (by simp [h])) _ (by simpa using hlen)

example : (∀ r ∈ ([⟨[2, 0], 3⟩, ⟨[1, 2], 4⟩] : SparseCochain), r.Valid 3 1) ∧
    ([⟨[2, 0], 3⟩, ⟨[1, 2], 4⟩] : SparseCochain).Pairwise (fun r r' => ¬ r.verts.Perm r'.verts) ∧
    Reoriented 1 ⟨[2, 0], 3⟩ ⟨[0, 2], -3⟩ := by
  refine ⟨?_, ?_, ?_⟩
  · intro r hr
    simp only [List.mem_cons, List.not_mem_nil, or_false] at hr
    rcases hr with rfl | rfl <;> exact ⟨rfl, by decide, by decide⟩
  · simp only [List.pairwise_cons, List.mem_singleton, forall_eq, List.not_mem_nil, IsEmpty.forall_iff, implies_true,
      List.Pairwise.nil, and_true]
    decide
  · exact ⟨![2, 0], Equiv.swap 0 1, by simp, by simp [List.ofFn_succ], by simp⟩

/-- **C07.** The lift keeps the simplices and the order of the rows, changes each value by a multiple of `p`, and puts
it in the balanced range: with `v'` the new value,
`-p ≤ 2 v'` and `2 v' ≤ p - 1`, i.e. `|v'| ≤ (p-1)/2` for odd `p`. -/
theorem C07_lift_balanced (p : ℤ) (hp : 2 ≤ p) (c : SparseCochain) (hc : ∀ r ∈ c, 0 ≤ r.val ∧ r.val < p) :
    List.Forall₂ (fun r r' : Row => r'.verts = r.verts ∧ p ∣ r'.val - r.val ∧ -p ≤ 2 * r'.val ∧ 2 * r'.val ≤ p - 1 ∧
      (p % 2 = 1 → |r'.val| ≤ (p - 1) / 2)) c (liftToIntegerCocycle c p) := by
  unfold liftToIntegerCocycle
  rw [List.forall₂_map_right_iff, List.forall₂_same]
  intro r hr
  obtain ⟨h0, h1⟩ := hc r hr
  simp only [liftVal]
  split
  · refine ⟨trivial, ⟨-1, by ring⟩, by omega, by omega, fun _ => ?_⟩
    rw [abs_le]; omega
  · refine ⟨trivial, ⟨0, by ring⟩, by omega, by omega, fun _ => ?_⟩
    rw [abs_le]; omega

/-- **C07.** For odd `p` the balanced representative is unique, so the lift is the only possible one. -/
theorem C07_lift_unique (p : ℤ) (hp : 2 ≤ p) (hodd : p % 2 = 1) (v w : ℤ) (hv : 0 ≤ v ∧ v < p)
    (hw : |w| ≤ (p - 1) / 2) (hdvd : p ∣ w - v) : liftVal p v = w := by
  obtain ⟨k, hk⟩ := hdvd
  rw [abs_le] at hw
  have h1 : -p < 2 * w ∧ 2 * w < p := by omega
  unfold liftVal
  have hk1 : k < 1 := by
    by_contra h
    have : p * 1 ≤ p * k := Int.mul_le_mul_of_nonneg_left (by omega) (by omega)
    omega
  have hk2 : -2 < k := by
    by_contra h
    have : p * k ≤ p * (-2) := Int.mul_le_mul_of_nonneg_left (by omega) (by omega)
    omega
  have : k = 0 ∨ k = -1 := by omega
  rcases this with rfl | rfl
  · rw [if_neg (by omega)]; omega
  · rw [if_pos (by omega)]; omega

example : liftToIntegerCocycle [⟨[0, 1], 40⟩, ⟨[1, 2], 3⟩, ⟨[0, 2], 20⟩, ⟨[2, 3], 21⟩] 41 =
    [⟨[0, 1], -1⟩, ⟨[1, 2], 3⟩, ⟨[0, 2], 20⟩, ⟨[2, 3], -20⟩] := by decide

/-- **C10.** For every list of pairwise different landmarks (indices of data points below `N`) and all cocycles whose
vertices are data-point indices, reindexing succeeds, keeps the values and the shape, and replaces a vertex that is the
`i`-th landmark by `i` and every other vertex by `-1`. -/
theorem C10_reindex (idxLand : List ℕ) (N : ℕ) (hnd : idxLand.Nodup) (hlt : ∀ v ∈ idxLand, v < N)
    (cocycles : List (List (List ZRow)))
    (hv : ∀ ck ∈ cocycles, ∀ c ∈ ck, ∀ r ∈ c, ∀ v ∈ r.verts, 0 ≤ v ∧ v < N) :
    ∃ out, reindexCocycles cocycles idxLand N = .ok out ∧
      List.Forall₂ (List.Forall₂ (List.Forall₂ fun r r' : ZRow => r'.val = r.val ∧
        List.Forall₂ (fun v v' : ℤ =>
          (∀ i (h : i < idxLand.length), v = (idxLand[i] : ℤ) → v' = i) ∧
          ((∀ u ∈ idxLand, v ≠ (u : ℤ)) → v' = -1)) r.verts r'.verts)) cocycles out := by
  obtain ⟨m, hm, hspec⟩ := idxMap_spec idxLand N hnd hlt
  simp only [reindexCocycles, hm, bind, Except.bind]
  apply mapM_forall₂
  intro ck hck
  apply mapM_forall₂
  intro c hc
  apply mapM_forall₂
  intro r hr
  exact reindexRow_spec hspec r (hv ck hck c hc r hr)

example : reindexCocycles [[[⟨[7, 2], 5⟩, ⟨[2, 0], -1⟩]]] [4, 7, 2] 9 =
    .ok [[[⟨[1, 2], 5⟩, ⟨[2, -1], -1⟩]]] := by decide

end Dreimac
