import Verif.Model.EMCoords

/-!
# Specification vocabulary: data sets and what ripser promises (independent of the model of the code)

A data set has `n` rows (possible landmarks) and `N` data points, with `δ u i` the distance from row `u` to data point `i`; row
`u` is data point `u`.
-/

namespace Dreimac

/-- The distances are those of a (pseudo)metric, restricted to pairs (row, data point). -/
structure IsDistanceTable (n N : ℕ) (δ : ℕ → ℕ → ℝ) : Prop where
  nonneg : ∀ u < n, ∀ i < N, 0 ≤ δ u i
  symm : ∀ u < n, ∀ v < n, δ u v = δ v u
  triangle : ∀ u < n, ∀ v < n, ∀ i < N, δ u v ≤ δ u i + δ v i

/-- The array `c` lists the values of the 1-cochain `x` on pairs of data points. -/
structure ListsCochain (c : List ZRow) (x : ℕ → ℕ → ℤ) : Prop where
  antisymm : ∀ u v, x v u = -x u v
  rows : ∀ r ∈ c, ∃ u v : ℕ, r.verts = [(u : ℤ), (v : ℤ)] ∧ x u v = r.val
  unlisted : ∀ u v : ℕ, (∀ r ∈ c, r.verts ≠ [(u : ℤ), (v : ℤ)] ∧ r.verts ≠ [(v : ℤ), (u : ℤ)]) → x u v = 0

/-- The 1-cochain `x` satisfies the cocycle condition modulo `p` on all triples from `S` with pairwise distances below `t`. -/
def CocycleModOn (p : ℤ) (S : List ℕ) (δ : ℕ → ℕ → ℝ) (t : ℝ) (x : ℕ → ℕ → ℤ) : Prop :=
  ∀ u ∈ S, ∀ v ∈ S, ∀ w ∈ S, δ u v < t → δ v w < t → δ u w < t → p ∣ x u v + x v w - x u w

/-- After conversion to ripser's precision (`ρ`) the distances below the threshold `t` are still below `d`.  Without conversion
(`ρ = id`) this says `t ≤ d`. -/
def BelowDeath (ρ : ℝ → ℝ) (t d : ℝ) : Prop := ∀ x < t, ρ x < d

/-- The threshold `t` comes before the death of the diagram point `q`, in ripser's precision. -/
def BeforeDeath (ρ : ℝ → ℝ) (q : Fl ℝ × Fl ℝ) (t : ℝ) : Prop := (∃ d, q.2 = .fin d ∧ BelowDeath ρ t d) ∨ q.2 = .pinf

/-- A diagram point: finite birth, and a death that is larger or infinite. -/
def IsInterval (q : Fl ℝ × Fl ℝ) : Prop := ∃ b : ℝ, q.1 = .fin b ∧ ((∃ d : ℝ, q.2 = .fin d ∧ b < d) ∨ q.2 = .pinf)

/-- What `ripser(X, n_perm = k, coeff = p, maxdim = maxdim, do_cocycles = True)` promises for a data set whose rows are at
distances `δ`: `k` different landmarks, their distances to the other rows, and for every dimension `1 ≤ q ≤ maxdim` a
diagram and for each of its intervals an array of different `q`-simplices of landmarks with values in `0, …, p - 1`;
in dimension 1 the array is a cocycle modulo `p` on the Rips complex below the death.  `ρ` is the conversion of a distance to
ripser's precision (`id` for an exact implementation; ripser itself uses single precision). -/
structure RipserSpec (ρ : ℝ → ℝ) (n k : ℕ) (δ : ℕ → ℕ → ℝ) (p : ℤ) (maxdim : ℕ) (res : RipserResult ℝ) : Prop where
  count : res.idxPerm.length = k
  nodup : res.idxPerm.Nodup
  range : ∀ v ∈ res.idxPerm, v < n
  dists : ∀ l (h : l < res.idxPerm.length), ∀ i < n, res.dperm2all l i = .fin (δ res.idxPerm[l] i)
  dims : res.dgms.length = maxdim + 1 ∧ res.cocycles.length = maxdim + 1
  classes : ∀ (q : ℕ) dgm coc, 1 ≤ q → res.dgms[q]? = some dgm → res.cocycles[q]? = some coc → coc.length = dgm.length
  intervals : ∀ (q : ℕ) dgm, 1 ≤ q → res.dgms[q]? = some dgm → ∀ pt ∈ dgm, IsInterval pt
  simplices : ∀ (q : ℕ) coc, res.cocycles[q]? = some coc → ∀ c ∈ coc,
    (∀ r ∈ c, r.verts.length = q + 1 ∧ r.verts.Nodup ∧ (∀ v ∈ r.verts, ∃ u ∈ res.idxPerm, v = (u : ℤ)) ∧
      0 ≤ r.val ∧ r.val < p) ∧
    c.Pairwise fun r r' => ¬ r.verts.Perm r'.verts
  cocycles : ∀ dgm coc, res.dgms[1]? = some dgm → res.cocycles[1]? = some coc → ∀ (j : ℕ) pt c, dgm[j]? = some pt →
    coc[j]? = some c → ∃ x, ListsCochain c x ∧ ∀ t, BeforeDeath ρ pt t → CocycleModOn p res.idxPerm δ t x

end Dreimac
