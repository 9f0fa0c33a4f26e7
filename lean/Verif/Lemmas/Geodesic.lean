import Verif.Spec.GeodesicEnv
import Mathlib.Data.List.Flatten
import Mathlib.Tactic.Linarith
import Mathlib.Tactic.Ring

/-!
# The neighbour graph as a sparse array
-/

namespace Dreimac

theorem npArange_mul (n k : ℕ) (hk : 0 < k) : npArange 0 (n * k + 1) k = (List.range (n + 1)).map fun i => i * k := by
  unfold npArange
  have : (n * k + 1 - 0 + k - 1) / k = n + 1 := by
    rw [show n * k + 1 - 0 + k - 1 = k * (n + 1) by
      rw [Nat.mul_add, Nat.mul_comm k n]; omega]
    exact Nat.mul_div_cancel_left _ hk
  rw [this]
  simp

theorem flatten_drop_take {α : Type} (f : ℕ → List α) (k : ℕ) : ∀ (n u : ℕ), u < n → (∀ i < n, (f i).length = k) →
    ((((List.range n).map f).flatten).take ((u + 1) * k)).drop (u * k) = f u := by
  intro n
  induction n with
  | zero => intro u h; omega
  | succ n ih =>
    intro u hu hl
    have hlen : (((List.range n).map f).flatten).length = n * k := by
      rw [List.length_flatten, List.map_map]
      have : (List.range n).map (List.length ∘ f) = List.replicate n k := by
        rw [List.eq_replicate_iff]
        refine ⟨by simp, ?_⟩
        intro b hb
        obtain ⟨i, hi, rfl⟩ := List.mem_map.1 hb
        exact hl i (by have := List.mem_range.1 hi; omega)
      rw [this]; simp
    rw [List.range_succ, List.map_append, List.flatten_append]
    simp only [List.map_cons, List.map_nil, List.flatten_cons, List.flatten_nil, List.append_nil]
    rcases Nat.lt_or_ge u n with h | h
    · rw [List.take_append_of_le_length]
      · exact ih u h fun i hi => hl i (by omega)
      · rw [hlen]; exact Nat.mul_le_mul_right k (by omega)
    · have : u = n := by omega
      subst this
      rw [List.take_of_length_le, List.drop_append_of_le_length, List.drop_of_length_le]
      · simp
      · omega
      · omega
      · rw [List.length_append, hlen, hl u (by omega), Nat.add_mul]; omega

/-- The rows of the sparse array are the rows of the query. -/
theorem kneighborsGraph_row {n k : ℕ} (hk : 0 < k) {q : ℕ → List (ℕ × ℝ)} (hl : ∀ i < n, (q i).length = k) {u : ℕ}
    (hu : u < n) : (kneighborsGraph n k q).row u = q u := by
  unfold CsrMatrix.row kneighborsGraph
  simp only [npArange_mul n k hk]
  have h1 : ((List.range (n + 1)).map fun i => i * k).getD (u + 1) 0 = (u + 1) * k := by
    simp [List.getD, show u + 1 < n + 1 by omega]
  have h2 : ((List.range (n + 1)).map fun i => i * k).getD u 0 = u * k := by
    simp [List.getD, show u < n + 1 by omega]
  rw [h1, h2]
  have h3 : ((List.range n).map fun u => (q u).map Prod.fst).flatten.zip ((List.range n).map fun u => (q u).map Prod.snd).flatten
      = ((List.range n).map q).flatten := by
    rw [← Function.comp_def (List.map Prod.fst) q, ← Function.comp_def (List.map Prod.snd) q, ← List.map_map, ← List.map_map,
      ← List.map_flatten, ← List.map_flatten]
    exact (List.zip_of_prod rfl rfl).symm
  rw [h3]
  exact flatten_drop_take q k n u hu hl

/-! ### Chains -/

section chains
variable {nbr : ℕ → Finset ℕ} {δ : ℕ → ℕ → ℝ}

theorem NeighbourChain.append {u v w : ℕ} {s t : ℝ} (h : NeighbourChain nbr δ u v s) (h' : NeighbourChain nbr δ v w t) :
    NeighbourChain nbr δ u w (s + t) := by
  induction h with
  | refl u => simpa using h'
  | step he _ ih => rw [add_assoc]; exact .step he (ih h')

theorem NeighbourChain.symm (hs : ∀ u v, δ u v = δ v u) {u v : ℕ} {s : ℝ} (h : NeighbourChain nbr δ u v s) :
    NeighbourChain nbr δ v u s := by
  induction h with
  | refl u => exact .refl u
  | @step u x v t he _ ih =>
    have : NeighbourChain nbr δ x u (δ x u + 0) := .step he.symm (.refl u)
    have := ih.append this
    rwa [add_zero, hs x u, add_comm] at this

theorem NeighbourChain.le (hr : ∀ u, δ u u = 0) (ht : ∀ u v w, δ u w ≤ δ u v + δ v w) {u v : ℕ} {s : ℝ}
    (h : NeighbourChain nbr δ u v s) : δ u v ≤ s := by
  induction h with
  | refl u => exact (hr u).le
  | @step u x v t he _ ih => linarith [ht u x v]

/-- The distances are those of a metric on chains. -/
structure ChainMetric (n : ℕ) (δ : ℕ → ℕ → ℝ) (D : ℕ → ℕ → WithTop ℝ) : Prop where
  self : ∀ u < n, D u u = 0
  symm : ∀ u < n, ∀ v < n, D u v = D v u
  triangle : ∀ u < n, ∀ v < n, ∀ w < n, D u w ≤ D u v + D v w
  ge : ∀ u < n, ∀ v < n, (δ u v : WithTop ℝ) ≤ D u v

theorem chainMetric {n : ℕ} (hr : ∀ u, δ u u = 0) (hs : ∀ u v, δ u v = δ v u) (ht : ∀ u v w, δ u w ≤ δ u v + δ v w)
    {D : ℕ → ℕ → WithTop ℝ} (h : ∀ u < n, ∀ v < n, IsChainDistance nbr δ u v (D u v)) : ChainMetric n δ D := by
  have hnn : ∀ u v, 0 ≤ δ u v := fun u v => by
    have := ht u v u
    rw [hr, hs v u] at this
    linarith
  have hge : ∀ u < n, ∀ v < n, (δ u v : WithTop ℝ) ≤ D u v := by
    intro u hu v hv
    cases hD : D u v with
    | top => exact le_top
    | coe s => exact WithTop.coe_le_coe.2 (((h u hu v hv).attained s hD).le hr ht)
  have hsy : ∀ u < n, ∀ v < n, D u v ≤ D v u := by
    intro u hu v hv
    cases hD : D v u with
    | top => exact le_top
    | coe s => exact (h u hu v hv).le s (((h v hv u hu).attained s hD).symm hs)
  refine ⟨fun u hu => ?_, fun u hu v hv => le_antisymm (hsy u hu v hv) (hsy v hv u hu), fun u hu v hv w hw => ?_, hge⟩
  · refine le_antisymm ?_ ?_
    · exact (h u hu u hu).le 0 (.refl u)
    · have := hge u hu u hu
      rwa [hr] at this
  · cases h1 : D u v with
    | top => simp
    | coe s =>
      cases h2 : D v w with
      | top => simp
      | coe t =>
        rw [← WithTop.coe_add]
        exact (h u hu w hw).le _ (((h u hu v hv).attained s h1).append ((h v hv w hw).attained t h2))

end chains

/-! ### The graph of the query -/

theorem rowDist_self (d : ℕ) (X : ℕ → ℕ → ℝ) (u : ℕ) : rowDist d X u u = 0 := by simp [rowDist]

theorem rowDist_symm (d : ℕ) (X : ℕ → ℕ → ℝ) (u v : ℕ) : rowDist d X u v = rowDist d X v u := by
  unfold rowDist
  congr 1
  exact Finset.sum_congr rfl fun k _ => by ring

theorem rowDist_nonneg (d : ℕ) (X : ℕ → ℕ → ℝ) (u v : ℕ) : 0 ≤ rowDist d X u v := Real.sqrt_nonneg _

/-- The sets of neighbours found by the query. -/
noncomputable def queryNbr (n : ℕ) (q : ℕ → List (ℕ × ℝ)) (u : ℕ) : Finset ℕ :=
  if u < n then ((q u).map Prod.fst).toFinset else ∅

theorem mem_queryNbr {n : ℕ} {q : ℕ → List (ℕ × ℝ)} {u v : ℕ} :
    v ∈ queryNbr n q u ↔ u < n ∧ v ∈ (q u).map Prod.fst := by
  unfold queryNbr
  split
  · next h => rw [List.mem_toFinset]; exact ⟨fun h' => ⟨h, h'⟩, fun h' => h'.2⟩
  · next h => simp [h]

theorem queryNbr_graph {query} (hq : QuerySpec query) (d : ℕ) (X : ℕ → ℕ → ℝ) (n k : ℕ) (hk : 0 < k) (hkn : k ≤ n) :
    IsNeighbourGraph n k (rowDist d X) (queryNbr n (query d X n k)) := by
  refine ⟨?_, ?_, ?_⟩
  · intro u v hv
    obtain ⟨hu, hv⟩ := mem_queryNbr.1 hv
    obtain ⟨p, hp, rfl⟩ := List.mem_map.1 hv
    exact ⟨hu, (hq.entry d X n k u hu hk hkn p hp).1⟩
  · intro u hu
    unfold queryNbr
    rw [if_pos hu, List.toFinset_card_of_nodup (hq.nodup d X n k u hu hk hkn), List.length_map,
      hq.length d X n k u hu hk hkn]
  · intro u hu v hv x hx hxn
    obtain ⟨-, hv⟩ := mem_queryNbr.1 hv
    obtain ⟨p, hp, rfl⟩ := List.mem_map.1 hv
    exact hq.nearest d X n k u hu hk hkn p hp x hx fun h => hxn (mem_queryNbr.2 ⟨hu, h⟩)

theorem kneighborsGraph_nonneg {query} (hq : QuerySpec query) (d : ℕ) (X : ℕ → ℕ → ℝ) (n k : ℕ) (hk : 0 < k) (hkn : k ≤ n) :
    (kneighborsGraph n k (query d X n k)).Nonneg n := by
  intro u hu p hp
  rw [kneighborsGraph_row hk (fun i hi => hq.length d X n k i hi hk hkn) hu] at hp
  obtain ⟨h1, h2⟩ := hq.entry d X n k u hu hk hkn p hp
  exact ⟨h1, h2 ▸ rowDist_nonneg d X u _⟩

theorem csrWalk_iff_chain {query} (hq : QuerySpec query) (d : ℕ) (X : ℕ → ℕ → ℝ) (n k : ℕ) (hk : 0 < k) (hkn : k ≤ n)
    (u v : ℕ) (s : ℝ) : CsrWalk (kneighborsGraph n k (query d X n k)) n u v s ↔
      NeighbourChain (queryNbr n (query d X n k)) (rowDist d X) u v s := by
  have hrow : ∀ u < n, (kneighborsGraph n k (query d X n k)).row u = query d X n k u := fun u hu =>
    kneighborsGraph_row hk (fun i hi => hq.length d X n k i hi hk hkn) hu
  constructor
  · intro h
    induction h with
    | refl u => exact .refl u
    | @step u x v a t hu hx he _ ih =>
      rw [hrow u hu, hrow x hx] at he
      rcases he with he | he
      · have := (hq.entry d X n k u hu hk hkn _ he).2
        simp only at this
        rw [this]
        exact .step (Or.inl (mem_queryNbr.2 ⟨hu, List.mem_map.2 ⟨_, he, rfl⟩⟩)) ih
      · have := (hq.entry d X n k x hx hk hkn _ he).2
        simp only at this
        rw [this, rowDist_symm]
        exact .step (Or.inr (mem_queryNbr.2 ⟨hx, List.mem_map.2 ⟨_, he, rfl⟩⟩)) ih
  · intro h
    induction h with
    | refl u => exact .refl u
    | @step u x v t he _ ih =>
      rcases he with he | he
      · obtain ⟨hu, he⟩ := mem_queryNbr.1 he
        obtain ⟨p, hp, rfl⟩ := List.mem_map.1 he
        obtain ⟨h1, h2⟩ := hq.entry d X n k u hu hk hkn p hp
        refine .step hu h1 (Or.inl ?_) ih
        rw [hrow u hu, ← h2]
        exact hp
      · obtain ⟨hx, he⟩ := mem_queryNbr.1 he
        obtain ⟨p, hp, rfl⟩ := List.mem_map.1 he
        obtain ⟨h1, h2⟩ := hq.entry d X n k x hx hk hkn p hp
        refine .step h1 hx (Or.inr ?_) ih
        rw [hrow x hx, rowDist_symm, ← h2]
        exact hp

theorem shortestPath_chain {env : GeodesicEnv} (hq : QuerySpec env.query) (hsp : ShortestPathSpec env.shortestPath) (d : ℕ)
    (X : ℕ → ℕ → ℝ) (n k : ℕ) (hk : 0 < k) (hkn : k ≤ n) : ∀ u < n, ∀ v < n,
      IsChainDistance (queryNbr n (env.query d X n k)) (rowDist d X) u v
        (env.shortestPath (kneighborsGraph n k (env.query d X n k)) n u v) := by
  intro u hu v hv
  have h := hsp _ n (kneighborsGraph_nonneg hq d X n k hk hkn) u hu v hv
  exact ⟨fun s hs => h.1 s ((csrWalk_iff_chain hq d X n k hk hkn u v s).2 hs),
    fun s hs => (csrWalk_iff_chain hq d X n k hk hkn u v s).1 (h.2 s hs)⟩

end Dreimac
