import Verif.DenseDistance
import Verif.ConvertProps
/-!
# Property C122: which grain can be where in the isotropic grain-growth and Zener-pinning examples

The programs of C87, C118 and C121 (isotropic/phase_field/graingrowth.cpp 73-111, zener_pinning/isotropic/phase_field/zener.cpp 104-142): order between runs, order between fields, and how far a field can spread.
-/

namespace MMSP.DenseDistance

open MMSP.Ieee MMSP.Ieee.Num MMSP.Stencil MMSP.ParallelRun MMSP.Symmetry MMSP.IeeeDense
open IeeeConfine (timesThree roundedCube)
open Finset (sum_congr mem_range sum_le_sum mul_sum mem_erase sum_nonneg)

/-! ## One node -/

/-- More of a field, less of the others: more of it after the step. -/
theorem node_mono {d n : Nat} {w : Nat → ℝ} {c : ℝ} (hs : Small d n w c) {v v' : Nat → ℝ} (hv : ∀ i, i < n → 0 ≤ v i ∧ v i ≤ 1) (hv' : ∀ i, i < n → 0 ≤ v' i ∧ v' i ≤ 1) {j : Nat} (hj : j < n) (h : v j ≤ v' j)
    (ho : ∀ i, i < n → i ≠ j → v' i ≤ v i) {F G F' G' : Nat → ℝ} (hF : ∀ i, i < d → F i ≤ F' i) (hG : ∀ i, i < d → G i ≤ G' i) : node d n w c v j F G ≤ node d n w c v' j F' G' := by
  obtain ⟨a, b⟩ := hv j hj
  obtain ⟨a', b'⟩ := hv' j hj
  obtain ⟨_, t1⟩ := others_le hj hv
  have hT : ∑ i ∈ (Finset.range n).erase j, v' i * v' i ≤ ∑ i ∈ (Finset.range n).erase j, v i * v i := sum_le_sum fun i hi => by
    obtain ⟨h1, h2⟩ := mem_erase.1 hi
    have h3 := ho i (mem_range.1 h2) h1
    exact mul_self_le_mul_self (hv' i (mem_range.1 h2)).1 h3
  have hL : ∑ i ∈ Finset.range d, w i * (F i + G i) ≤ ∑ i ∈ Finset.range d, w i * (F' i + G' i) := sum_le_sum fun i hi =>
    mul_le_mul_of_nonneg_left (by linarith [hF i (mem_range.1 hi), hG i (mem_range.1 hi)]) (hs.w0 i (mem_range.1 hi))
  rw [node_eq, node_eq]
  unfold react
  rw [sum_split hj, sum_split hj]
  have c0 := hs.c0
  have hle := hs.le
  set T := ∑ i ∈ (Finset.range n).erase j, v i * v i
  set T' := ∑ i ∈ (Finset.range n).erase j, v' i * v' i
  set W := ∑ i ∈ Finset.range d, w i
  have k1 : c * T ≤ c * (n - 1) := mul_le_mul_of_nonneg_left t1 c0
  have k2 := mul_le_mul_of_nonneg_left hL (by linarith : (0 : ℝ) ≤ 2 * c)
  have k3 : 0 ≤ c * v' j * (T - T') := mul_nonneg (mul_nonneg c0 a') (by linarith)
  have sq : v j ^ 2 + v j * v' j + v' j ^ 2 ≤ 3 := by nlinarith
  have k4 := mul_le_mul_of_nonneg_left sq c0
  have k5 : 0 ≤ (v' j - v j) * (1 + c - 4 * c * W - c * (v j ^ 2 + v j * v' j + v' j ^ 2) - 2 * c * T) := mul_nonneg (by linarith) (by nlinarith)
  nlinarith

/-- A field that is larger than another at a node and its neighbours stays larger there. -/
theorem node_dominates {d n : Nat} {w : Nat → ℝ} {c : ℝ} (hs : Small d n w c) {v : Nat → ℝ} (hv : ∀ i, i < n → 0 ≤ v i ∧ v i ≤ 1) {j k : Nat} (hj : j < n) (h : v k ≤ v j)
    {F G F' G' : Nat → ℝ} (hF : ∀ i, i < d → F i ≤ F' i) (hG : ∀ i, i < d → G i ≤ G' i) (hk : 0 ≤ v k) : node d n w c v k F G ≤ node d n w c v j F' G' := by
  obtain ⟨a, b⟩ := hv j hj
  obtain ⟨_, t1⟩ := others_le hj hv
  have hL : ∑ i ∈ Finset.range d, w i * (F i + G i) ≤ ∑ i ∈ Finset.range d, w i * (F' i + G' i) := sum_le_sum fun i hi =>
    mul_le_mul_of_nonneg_left (by linarith [hF i (mem_range.1 hi), hG i (mem_range.1 hi)]) (hs.w0 i (mem_range.1 hi))
  rw [node_eq, node_eq]
  unfold react
  have c0 := hs.c0
  have hle := hs.le
  have hS : ∑ i ∈ Finset.range n, v i * v i ≤ n := by rw [sum_split hj]; nlinarith
  set S := ∑ i ∈ Finset.range n, v i * v i
  set W := ∑ i ∈ Finset.range d, w i
  have k1 : c * S ≤ c * n := mul_le_mul_of_nonneg_left hS c0
  have k2 := mul_le_mul_of_nonneg_left hL (by linarith : (0 : ℝ) ≤ 2 * c)
  have k3 : 0 ≤ c * (v j ^ 2 + v j * v k + v k ^ 2) := by positivity
  have k5 : 0 ≤ (v j - v k) * (1 + c - 4 * c * W + c * (v j ^ 2 + v j * v k + v k ^ 2) - 2 * c * S) := mul_nonneg (by linarith) (by nlinarith)
  nlinarith

/-! ## Order between runs -/

/-- Real cells of `n` numbers from 0 to 1: more of field `a` in the second, less of the others; equal in fields that do not change, unless `a` is the only one that does. -/
def Ahead (n a b : Nat) (live : Nat → Bool) (u v : List ℝ) : Prop :=
  u.length = n ∧ v.length = n ∧ (∀ j, j < n → (0 ≤ u.getD j 0 ∧ u.getD j 0 ≤ 1) ∧ (0 ≤ v.getD j 0 ∧ v.getD j 0 ≤ 1)) ∧ (∀ j, j < n → j ≠ a → v.getD j 0 ≤ u.getD j 0) ∧ u.getD a 0 ≤ v.getD a 0 ∧
    (live b = true → ∀ j, j < n → live j = false → v.getD j 0 = u.getD j 0)

theorem term_order {g : Shape} (hg : Room 1 g) {n a b : Nat} {live : Nat → Bool} (ha : a < n) (hab : a ≠ b) (hla : live a = true) (hlive : ∀ j, j < n → live j = true → j = a ∨ j = b) {dx w : Nat → ℝ}
    (hdx : ∀ i, i < g.dim → lapWeight (dx i) = w i) {c : ℝ} (hs : Small g.dim n w c) (steps : Nat) {σ τ : Grids (List ℝ)} (h : Compare.Pairs g (Ahead n a b live) (σ 0) (τ 0)) :
    ∃ σ' τ', serialRun g (evolveUpdate (isoKernel g.dim n dx (term live (fun a => a ^ 3) c n)) steps) σ = .ok σ' ∧
      serialRun g (evolveUpdate (isoKernel g.dim n dx (term live (fun a => a ^ 3) c n)) steps) τ = .ok τ' ∧ Compare.Pairs g (Ahead n a b live) (σ' 0) (τ' 0) := by
  refine run_pairs hg (P := fun _ => Ahead n a b live) (fun k a b h => ⟨h.1, h.2.1⟩) (fun k data data' x hx hp => ?_) steps h
  obtain ⟨_, _, r, o, m, e⟩ := hp x hx
  have pl := fun i => hp _ (near_node hg hx i (.inl rfl))
  have mi := fun i => hp _ (near_node hg hx i (.inr rfl))
  refine ⟨by simp, by simp, fun j hj => ?_, fun j hj hne => ?_, ?_, fun hb j hj hl => ?_⟩
  · rw [getD_map hj, getD_map hj]
    unfold term
    by_cases hl : live j = true
    · rw [if_pos hl, if_pos hl, isoTerm_node hj hdx, isoTerm_node hj hdx]
      exact ⟨node_frac hs (fun i hi => (r i hi).1) hj (fun i _ => ((pl i).2.2.1 j hj).1) fun i _ => ((mi i).2.2.1 j hj).1,
        node_frac hs (fun i hi => (r i hi).2) hj (fun i _ => ((pl i).2.2.1 j hj).2) fun i _ => ((mi i).2.2.1 j hj).2⟩
    · rw [if_neg hl, if_neg hl]; exact r j hj
  · rw [getD_map hj, getD_map hj]
    unfold term
    by_cases hl : live j = true
    · obtain rfl : j = b := (hlive j hj hl).resolve_left hne
      rw [if_pos hl, if_pos hl, isoTerm_node hj hdx, isoTerm_node hj hdx]
      refine node_mono hs (fun i hi => (r i hi).2) (fun i hi => (r i hi).1) hj (o j hj hne) (fun i hi hij => ?_) (fun i _ => (pl i).2.2.2.1 j hj hne) fun i _ => (mi i).2.2.2.1 j hj hne
      by_cases hia : i = a
      · rw [hia]; exact m
      · have hdead : live i = false := by
          by_contra hc
          exact (hlive i hi (by simpa using hc)).elim hia hij
        exact (e hl i hi hdead).ge
    · rw [if_neg hl, if_neg hl]; exact o j hj hne
  · rw [getD_map ha, getD_map ha]
    unfold term
    rw [if_pos hla, if_pos hla, isoTerm_node ha hdx, isoTerm_node ha hdx]
    exact node_mono hs (fun i hi => (r i hi).1) (fun i hi => (r i hi).2) ha m (fun i hi hia => o i hi hia) (fun i _ => (pl i).2.2.2.2.1) fun i _ => (mi i).2.2.2.2.1
  · rw [getD_map hj, getD_map hj]
    unfold term
    rw [if_neg (by simp [hl]), if_neg (by simp [hl])]
    exact e hb j hj hl

/-- **C122.** Two grains (graingrowth.cpp): more of the first and less of the second at every node at the start, and so at every node after any number of steps. -/
theorem growth_order {g : Shape} (hg : Room 1 g) {dx w : Nat → ℝ} (hdx : ∀ i, i < g.dim → lapWeight (dx i) = w i) {c : ℝ} (hs : Small g.dim 2 w c) (steps : Nat) {σ τ : Grids (List ℝ)}
    (h : Compare.Pairs g (Ahead 2 0 1 fun _ => true) (σ 0) (τ 0)) :
    ∃ σ' τ', serialRun g (evolveUpdate (isoKernel g.dim 2 dx (isoTerm (fun a => a ^ 3) c 2)) steps) σ = .ok σ' ∧
      serialRun g (evolveUpdate (isoKernel g.dim 2 dx (isoTerm (fun a => a ^ 3) c 2)) steps) τ = .ok τ' ∧ Compare.Pairs g (Ahead 2 0 1 fun _ => true) (σ' 0) (τ' 0) := by
  rw [iso_term]
  exact term_order hg (by decide) (by decide) rfl (fun j hj _ => by omega) hdx hs steps h

/-- **C122.** Two grains and particles (zener.cpp): the same with equal particles. -/
theorem zener_order {g : Shape} (hg : Room 1 g) {dx w : Nat → ℝ} (hdx : ∀ i, i < g.dim → lapWeight (dx i) = w i) {c : ℝ} (hs : Small g.dim 3 w c) (steps : Nat) {σ τ : Grids (List ℝ)}
    (h : Compare.Pairs g (Ahead 3 1 2 fun j => j != 0) (σ 0) (τ 0)) :
    ∃ σ' τ', serialRun g (evolveUpdate (isoKernel g.dim 3 dx (zenerTerm (fun a => a ^ 3) c 3)) steps) σ = .ok σ' ∧
      serialRun g (evolveUpdate (isoKernel g.dim 3 dx (zenerTerm (fun a => a ^ 3) c 3)) steps) τ = .ok τ' ∧ Compare.Pairs g (Ahead 3 1 2 fun j => j != 0) (σ' 0) (τ' 0) := by
  rw [zener_term]
  exact term_order hg (by decide) (by decide) rfl (fun j hj hl => by simp at hl; omega) hdx hs steps h

/-- **C122.** One grain and particles: with more particles there is less of the grain at every node, for ever. -/
theorem particles_order {g : Shape} (hg : Room 1 g) {dx w : Nat → ℝ} (hdx : ∀ i, i < g.dim → lapWeight (dx i) = w i) {c : ℝ} (hs : Small g.dim 2 w c) (steps : Nat) {σ τ : Grids (List ℝ)}
    (h : Compare.Pairs g (Ahead 2 1 0 fun j => j != 0) (σ 0) (τ 0)) :
    ∃ σ' τ', serialRun g (evolveUpdate (isoKernel g.dim 2 dx (zenerTerm (fun a => a ^ 3) c 2)) steps) σ = .ok σ' ∧
      serialRun g (evolveUpdate (isoKernel g.dim 2 dx (zenerTerm (fun a => a ^ 3) c 2)) steps) τ = .ok τ' ∧ Compare.Pairs g (Ahead 2 1 0 fun j => j != 0) (σ' 0) (τ' 0) := by
  rw [zener_term]
  exact term_order hg (by decide) (by decide) rfl (fun j hj hl => by simp at hl; omega) hdx hs steps h

/-! ## Order between fields -/

/-- Numbers from 0 to 1, field `k` nowhere above field `j`. -/
def Below (n k j : Nat) (u : List ℝ) : Prop := u.length = n ∧ (∀ i, i < n → 0 ≤ u.getD i 0 ∧ u.getD i 0 ≤ 1) ∧ u.getD k 0 ≤ u.getD j 0

/-- **C122.** Any number of fields: a field that is at no node above another one is so after any number of steps. -/
theorem growth_below {g : Shape} (hg : Room 1 g) {n k j : Nat} (hk : k < n) (hj : j < n) {dx w : Nat → ℝ} (hdx : ∀ i, i < g.dim → lapWeight (dx i) = w i) {c : ℝ} (hs : Small g.dim n w c) (steps : Nat)
    {σ : Grids (List ℝ)} (h : Compare.AllNodes g (Below n k j) (σ 0)) :
    ∃ σ', serialRun g (evolveUpdate (isoKernel g.dim n dx (isoTerm (fun a => a ^ 3) c n)) steps) σ = .ok σ' ∧ Compare.AllNodes g (Below n k j) (σ' 0) := by
  have key : ∀ (data : Int → List ℝ) x, g.IsNode x → Compare.AllNodes g (Below n k j) data →
      Below n k j ((List.range n).map (isoTerm (fun a => a ^ 3) c n (lapList g n dx data x) (cellAt g data x))) := fun data x hx hd => by
    obtain ⟨_, r, o⟩ := hd x hx
    have pl := fun i => hd _ (near_node hg hx i (.inl rfl))
    have mi := fun i => hd _ (near_node hg hx i (.inr rfl))
    refine ⟨by simp, fun i hi => ?_, ?_⟩
    · rw [getD_map hi, isoTerm_node hi hdx]
      exact node_frac hs r hi (fun a _ => (pl a).2.1 i hi) fun a _ => (mi a).2.1 i hi
    · rw [getD_map hk, getD_map hj, isoTerm_node hk hdx, isoTerm_node hj hdx]
      exact node_dominates hs r hj o (fun a _ => (pl a).2.2) (fun a _ => (mi a).2.2) (r k hk).1
  obtain ⟨σ', e, hP, _⟩ := iso_keeps hg (P := Below n k j) (R := fun _ _ => True) (fun v hv => hv.1) key (fun _ _ _ _ _ => trivial) steps h (fun _ _ => trivial)
  exact ⟨σ', e, hP⟩

/-- **C122.** Then the number that PF2MC (C39) gives to a node is never that of the smaller field, if it comes after the larger one. -/
theorem below_not_shown {n k j : Nat} (hjk : j < k) (hk : k < n) {u : List ℝ} (h : Below n k j u) : Convert.dominant (n : Int) u ≠ .ok (k : Int) := by
  obtain ⟨m, e, hm⟩ := Convert.dominant_spec (v := u) (by intro e; rw [e] at h; have := h.1; simp at this; omega)
  rw [h.1] at e
  rw [e]
  intro hc
  have hmk : (m : Int) = k := Outcome.ok.inj hc
  obtain rfl : m = k := by omega
  obtain ⟨hl, _, o⟩ := h
  obtain ⟨a, h1, _, h3⟩ := hm
  have hj : u[j]? = some (u.getD j 0) := getD_some (by omega)
  have h4 := h3 j hjk _ hj
  rw [List.getD_eq_getElem?_getD, h1] at o
  exact absurd h4 (not_lt.2 o)

/-! ## Grain numbers are names -/

/-- The second cell is the first with its fields renumbered by `π`. -/
def Renumbered (n : Nat) (π : Equiv.Perm Nat) (u v : List ℝ) : Prop := u.length = n ∧ v.length = n ∧ ∀ j, j < n → v.getD (π j) 0 = u.getD j 0

/-- **C122.** With exact arithmetic, any spacing and any time step, renumbering the fields of the initial grid renumbers the result and changes nothing else; with Zener pinning if field 0 keeps its number. -/
theorem growth_renumbered {g : Shape} (hg : Room 1 g) {n : Nat} {π : Equiv.Perm Nat} (hπ : ∀ j, j < n ↔ π j < n) (dx : Nat → ℝ) (c : ℝ) (steps : Nat) {σ τ : Grids (List ℝ)} (h : Compare.Pairs g (Renumbered n π) (σ 0) (τ 0)) :
    (∃ σ' τ', serialRun g (evolveUpdate (isoKernel g.dim n dx (isoTerm (fun a => a ^ 3) c n)) steps) σ = .ok σ' ∧
      serialRun g (evolveUpdate (isoKernel g.dim n dx (isoTerm (fun a => a ^ 3) c n)) steps) τ = .ok τ' ∧ Compare.Pairs g (Renumbered n π) (σ' 0) (τ' 0)) ∧
    (π 0 = 0 → ∃ σ' τ', serialRun g (evolveUpdate (isoKernel g.dim n dx (zenerTerm (fun a => a ^ 3) c n)) steps) σ = .ok σ' ∧
      serialRun g (evolveUpdate (isoKernel g.dim n dx (zenerTerm (fun a => a ^ 3) c n)) steps) τ = .ok τ' ∧ Compare.Pairs g (Renumbered n π) (σ' 0) (τ' 0)) := by
  have key : ∀ live : Nat → Bool, (∀ j, live (π j) = live j) → ∃ σ' τ', serialRun g (evolveUpdate (isoKernel g.dim n dx (term live (fun a => a ^ 3) c n)) steps) σ = .ok σ' ∧
      serialRun g (evolveUpdate (isoKernel g.dim n dx (term live (fun a => a ^ 3) c n)) steps) τ = .ok τ' ∧ Compare.Pairs g (Renumbered n π) (σ' 0) (τ' 0) := fun live hlive => by
    refine run_pairs hg (P := fun _ => Renumbered n π) (fun _ _ _ h => ⟨h.1, h.2.1⟩) (fun k data data' x hx hp => ⟨by simp, by simp, fun j hj => ?_⟩) steps h
    have hj' := (hπ j).1 hj
    obtain ⟨_, _, r⟩ := hp x hx
    have pl := fun i => (hp _ (near_node hg hx i (.inl rfl))).2.2 j hj
    have mi := fun i => (hp _ (near_node hg hx i (.inr rfl))).2.2 j hj
    rw [getD_map hj, getD_map hj']
    unfold term
    rw [hlive j, r j hj]
    by_cases hl : live j = true
    · rw [if_pos hl, if_pos hl, isoTerm_node hj (w := fun i => lapWeight (dx i)) fun _ _ => rfl, isoTerm_node hj' (w := fun i => lapWeight (dx i)) fun _ _ => rfl]
      have e : ∑ i ∈ Finset.range n, (cellAt g data' x).getD i 0 * (cellAt g data' x).getD i 0 = ∑ i ∈ Finset.range n, (cellAt g data x).getD i 0 * (cellAt g data x).getD i 0 :=
        (Finset.sum_equiv π (fun i => by rw [mem_range, mem_range]; exact hπ i) fun i hi => by rw [r i (mem_range.1 hi)]).symm
      unfold node
      simp only [e, r j hj, pl, mi]
    · rw [if_neg hl, if_neg hl]
  refine ⟨?_, fun h0 => ?_⟩
  · rw [iso_term]; exact key _ fun _ => rfl
  · rw [zener_term]
    refine key _ fun j => ?_
    have : (π j = 0) = (j = 0) := propext ⟨fun e => π.injective (e.trans h0.symm), fun e => by rw [e, h0]⟩
    simp [bne, BEq.beq, this]

section
variable {T : Type} [Zero T] [One T] [Add T] [Sub T] [Mul T] [Neg T] [Div T]

/-- **C122.** In any arithmetic, with any `pow` and any time step: two fields that are equal at every node stay equal at every node, bit for bit; with Zener pinning if neither is field 0. -/
theorem twins {g : Shape} (hg : Room 1 g) {n j k : Nat} (hj : j < n) (hk : k < n) (cube : T → T) (dt : T) (dx : Nat → T) (steps : Nat) {σ : Grids (List T)}
    (h : Compare.AllNodes g (fun v => v.length = n ∧ v.getD j 0 = v.getD k 0) (σ 0)) :
    (∃ σ', serialRun g (evolveUpdate (isoKernel g.dim n dx (isoTerm cube dt n)) steps) σ = .ok σ' ∧ Compare.AllNodes g (fun v => v.length = n ∧ v.getD j 0 = v.getD k 0) (σ' 0)) ∧
    (j ≠ 0 → k ≠ 0 → ∃ σ', serialRun g (evolveUpdate (isoKernel g.dim n dx (zenerTerm cube dt n)) steps) σ = .ok σ' ∧ Compare.AllNodes g (fun v => v.length = n ∧ v.getD j 0 = v.getD k 0) (σ' 0)) := by
  have one : ∀ (data : Int → List T) x, g.IsNode x → Compare.AllNodes g (fun v => v.length = n ∧ v.getD j 0 = v.getD k 0) data →
      isoTerm cube dt n (lapList g n dx data x) (cellAt g data x) j = isoTerm cube dt n (lapList g n dx data x) (cellAt g data x) k := fun data x hx hd => by
    unfold isoTerm
    rw [lapList_getD g hj, lapList_getD g hk, (hd x hx).2]
    simp only [fun i => (hd _ (near_node hg hx i (.inl rfl))).2, fun i => (hd _ (near_node hg hx i (.inr rfl))).2]
  have key : ∀ value : List T → List T → Nat → T, (∀ l y, isoTerm cube dt n l y j = isoTerm cube dt n l y k → value l y j = value l y k) →
      ∃ σ', serialRun g (evolveUpdate (isoKernel g.dim n dx value) steps) σ = .ok σ' ∧ Compare.AllNodes g (fun v => v.length = n ∧ v.getD j 0 = v.getD k 0) (σ' 0) := fun value hv => by
    obtain ⟨σ', e, hP, _⟩ := iso_keeps hg (P := fun v => v.length = n ∧ v.getD j 0 = v.getD k 0) (R := fun _ _ => True) (dx := dx) (value := value) (fun v hv => hv.1)
      (fun data x hx hd => ⟨by simp, by rw [getD_map hj, getD_map hk]; exact hv _ _ (one data x hx hd)⟩) (fun _ _ _ _ _ => trivial) steps h (fun _ _ => trivial)
    exact ⟨σ', e, hP⟩
  refine ⟨key _ fun _ _ h => h, fun h1 h2 => key _ fun l y h => ?_⟩
  unfold zenerTerm
  rw [if_neg h1, if_neg h2]; exact h

end

/-! ## How far a field spreads -/

section
variable {T : Type} [Zero T] [One T] [Add T] [Sub T] [Mul T] [Div T]

/-- What a node and its neighbours have in common, the node keeps: one hop per step. -/
theorem iso_hop {g : Shape} (hg : Room 1 g) {n : Nat} {dx : Nat → T} {value : List T → List T → Nat → T} {P Q : List T → Prop} (hP : ∀ v, P v → v.length = n)
    (hall : ∀ (data : Int → List T) x, g.IsNode x → Compare.AllNodes g P data → P ((List.range n).map (value (lapList g n dx data x) (cellAt g data x))))
    (hhop : ∀ (data : Int → List T) x, g.IsNode x → Compare.AllNodes g P data → Q (cellAt g data x) → (∀ i, i < g.dim → ∀ t, t = 1 ∨ t = -1 → Q (cellAt g data (wrap g (bump x i t)))) →
      Q ((List.range n).map (value (lapList g n dx data x) (cellAt g data x))))
    (steps : Nat) {σ : Grids (List T)} (h : Compare.AllNodes g P (σ 0)) :
    ∃ σ', serialRun g (evolveUpdate (isoKernel g.dim n dx value) steps) σ = .ok σ' ∧ Compare.AllNodes g P (σ' 0) ∧
      ∀ x, g.IsNode x → (∀ y, Ball g steps x y → Q (cellAt g (σ 0) y)) → Q (cellAt g (σ' 0) x) := by
  have e0 : ∀ k, serialRun g (evolveUpdate (isoKernel g.dim n dx value) k) σ = serialRun g (repeatProg [.loop 1 (isoKernel g.dim n dx value), .swap 0 1, .ghostswap 0] k) σ := fun k => by
    unfold evolveUpdate serialRun; rw [List.foldlM_cons]; rfl
  simp only [e0]
  induction steps with
  | zero => exact ⟨σ, rfl, h, fun x _ h => h x rfl⟩
  | succ m ih =>
    obtain ⟨σ1, e1, h1, r1⟩ := ih
    obtain ⟨σ2, e2, h2⟩ := iso_one hg dx value (n := n) (σ := σ1) fun x hx => hP _ (h1 x hx)
    refine ⟨σ2, by rw [repeatProg_succ, ParallelRun.serialRun_append, e1, Outcome.ok_bind, e2], fun x hx => by rw [h2 x hx]; exact hall _ x hx h1, fun x hx h => ?_⟩
    rw [h2 x hx]
    exact hhop _ x hx h1 (r1 x hx fun y hy => h y (.inl hy)) fun i hi t ht => r1 _ (near_node hg hx i ht) fun y hy => h y (.inr ⟨i, hi, t, ht, hy⟩)

end

section
variable {f : Fmt}

theorem ball_node {g : Shape} (hg : Room 1 g) {m : Nat} {x y : Nat → Int} (hx : g.IsNode x) (h : Ball g m x y) : g.IsNode y := by
  induction m generalizing x with
  | zero => rw [show y = x from h]; exact hx
  | succ m ih =>
    rcases h with h | ⟨i, _, t, ht, h⟩
    · exact ih hx h
    · exact ih (near_node hg hx i ht) h

/-- A field that is 0 at a node and its neighbours is exactly 0 there after the step. -/
theorem isoTerm_absent (hf : f.Good) {cube : Num f → Num f} (c0 : ∀ a, Is a 0 → Is (cube a) 0) {dt : Num f} {c : ℝ} (hdt : Is dt c) {n d : Nat} {dx : Nat → Num f} (hw : ∀ i, i < d → ∃ w, Is (lapWeight (dx i)) w)
    {y l : List (Num f)} {S : ℝ} (hS : Is (squares n y) S) {j : Nat} (hy : Is (y.getD j 0) 0)
    (hl : l.getD j 0 = (List.range d).foldl (fun s i => s + lapWeight (dx i) * (y.getD j 0 - (1 + 1) * y.getD j 0 + y.getD j 0)) 0) : Is (isoTerm cube dt n l y j) 0 := by
  have z := as_int hy
  have il : Is (l.getD j 0) ((0 : ℤ) : ℝ) := by
    rw [hl, Int.cast_zero]
    exact lap_flat hf hw z (by omega) (by omega)
  have i2 : Is (1 + 1 : Num f) 2 := MMSP.IeeeConfine.is_two hf
  have in1 : Is (-y.getD j 0) ((0 : ℤ) : ℝ) := by have := hy.neg (good_p hf); rw [neg_zero] at this; exact as_int this
  have a1 := int_sub hf in1 (as_int (c0 _ hy)) (by decide)
  have a2 : Is (y.getD j 0 * squares n y) 0 := by
    have := hy.mul hS (by rw [zero_mul, rnd_zero, abs_zero]; exact Rounding.two_zpow_pos _)
    rwa [zero_mul, rnd_zero] at this
  have a3 := int_sub hf (as_int a2) il (by decide)
  rw [sub_zero, Int.cast_zero] at a3
  rw [sub_zero] at a1
  have a5 := int_add hf a1 (as_int (mul_int_zero i2 a3)) (by decide)
  rw [add_zero, Int.cast_zero] at a5
  have a7 := int_sub hf z (as_int (mul_int_zero hdt a5)) (by decide)
  rw [sub_zero, Int.cast_zero] at a7
  exact a7

/-- **C122.** In IEEE numbers, underflow and overflow included: a field that is 0 at every node at most `steps` hops from a node is exactly 0 at the node after `steps` steps; a field that is 0 everywhere never appears. -/
theorem field_reach {cube : Num f → Num f} (hcube : Cubed cube) (c0 : ∀ a, Is a 0 → Is (cube a) 0) {g : Shape} (hroom : Room 1 g) {k s n : Nat} {c : ℝ} (hg : Gentle f g.dim k s c) {dt : Num f} (hdt : Is dt c) (hn : n ≤ 2 ^ s)
    {dx : Nat → Num f} (hw : Weights f g.dim k dx) {value : List (Num f) → List (Num f) → Nat → Num f} (hval : value = isoTerm cube dt n ∨ value = zenerTerm cube dt n) {j : Nat} (hj : j < n) (steps : Nat)
    {σ : Grids (List (Num f))} (h : Compare.AllNodes g (Fracs n) (σ 0)) :
    ∃ σ', serialRun g (evolveUpdate (isoKernel g.dim n dx value) steps) σ = .ok σ' ∧ Compare.AllNodes g (Fracs n) (σ' 0) ∧
      (∀ x, g.IsNode x → (∀ y, Ball g steps x y → Is ((cellAt g (σ 0) y).getD j 0) 0) → Is ((cellAt g (σ' 0) x).getD j 0) 0) ∧
      (Compare.AllNodes g (fun v => Is (v.getD j 0) 0) (σ 0) → Compare.AllNodes g (fun v => Is (v.getD j 0) 0) (σ' 0)) := by
  choose! w hw1 hw2 using hw
  have absent : ∀ (data : Int → List (Num f)) x, g.IsNode x → Compare.AllNodes g (Fracs n) data → Is ((cellAt g data x).getD j 0) 0 →
      (∀ i, i < g.dim → ∀ t, t = 1 ∨ t = -1 → Is ((cellAt g data (wrap g (bump x i t))).getD j 0) 0) → Is (isoTerm cube dt n (lapList g n dx data x) (cellAt g data x) j) 0 := fun data x hx hd h0 hn0 => by
    have hy : ∀ i, i < n → Frac ((cellAt g data x).getD i 0) := fun i hi => fracs_getD (hd x hx) hi
    choose! v hv using hy
    have room := hg.room
    have m1 : s ≤ max s (k + g.dim) := le_max_left _ _
    refine isoTerm_absent hg.good c0 hdt (fun i hi => ⟨w i, hw1 i hi⟩) (squares_is hg.good hn hg.digits (by omega) hv) h0 ?_
    rw [lapList_getD g hj]
    refine List.foldl_ext _ _ _ fun a i hi => ?_
    rw [is_eq (hn0 i (List.mem_range.1 hi) 1 (.inl rfl)) h0, is_eq (hn0 i (List.mem_range.1 hi) (-1) (.inr rfl)) h0]
  obtain ⟨σ', e, h1, h2⟩ := iso_hop hroom (P := Fracs n) (Q := fun v => Is (v.getD j 0) 0) (dx := dx) (value := value) (fun v hv => hv.1)
    (fun data x hx hd => fracs_map fun i hi => by
      have fr := node_fracs hcube hroom hg hdt hn (fun i hi => ⟨w i, hw1 i hi, hw2 i hi⟩) hx hd hi
      rcases hval with rfl | rfl
      · exact fr
      · unfold zenerTerm
        split_ifs
        · exact fracs_getD (hd x hx) hi
        · exact fr)
    (fun data x hx hd h0 hn0 => by
      have z := absent data x hx hd h0 hn0
      rw [getD_map hj]
      rcases hval with rfl | rfl
      · exact z
      · unfold zenerTerm
        split_ifs
        · exact h0
        · exact z) steps h
  exact ⟨σ', e, h1, h2, fun ha x hx => h2 x hx fun y hy => ha y (ball_node hroom hx hy)⟩

/-- **C122.** The same on any decomposition, with stale ghosts. -/
theorem ranks_reach {cube : Num f → Num f} (hcube : Cubed cube) (c0 : ∀ a, Is a 0 → Is (cube a) 0) {w : World} {np n : Nat} {c : Nat → Cell (List (Num f))} (hc : ∀ k, RoundTrips (c k))
    (hPc : ∀ k v, Entries (Num f) n k v → (c k).Valid v) (hok : w.Ok np) (hgh : 1 ≤ w.ghosts) (hroom : Room 1 w.serial) {k s : Nat} {cv : ℝ} (hg : Gentle f w.d k s cv) {dt : Num f} (hdt : Is dt cv) (hn : n ≤ 2 ^ s)
    {dx : Nat → Num f} (hw : Weights f w.d k dx) {value : List (Num f) → List (Num f) → Nat → Num f} (hval : value = isoTerm cube dt n ∨ value = zenerTerm cube dt n) {j : Nat} (hj : j < n) (steps : Nat)
    {σ : Grids (List (Num f))} {D : Int → Grids (List (Num f))} (hF : SameField w np σ D 0) (hS : AllCells w np (Entries (Num f) n) σ D) (hσ : Compare.AllNodes w.serial (Fracs n) (σ 0)) :
    ∃ D', Finished np (mpiRun c w (evolveUpdate (isoKernel w.d n dx value) steps) fun r => .ok (D r)) D' ∧ ∀ r, Ghost.IsRank np r → ∀ x, (w.shape r).IsNode x →
      (∀ y, Ball w.serial steps x y → Is ((cellAt w.serial (σ 0) y).getD j 0) 0) → Is ((cellAt (w.shape r) (D' r 0) x).getD j 0) 0 := by
  obtain ⟨σ', D', e1, e2, e3⟩ := isoDense_parallel hc hPc hok hgh dx value steps hF hS
  obtain ⟨σ2, f1, _, f2, _⟩ := field_reach hcube c0 hroom hg hdt hn hw hval hj steps hσ
  obtain rfl : σ2 = σ' := Outcome.ok.inj (f1.symm.trans e1)
  exact ⟨D', e2, fun r hr x hx hb => by rw [e3 r hr x hx]; exact f2 x (Ghost.isNode_global hok.setup hr hx) hb⟩

end

/-! ## Necessity -/

/-- **C122, necessity.** With time step 1 three overlapping fields change places: the first is everywhere above the second, and after one step everywhere below it. -/
theorem large_step_swaps : ∃ σ' : Grids (List ℝ), serialRun (Conserve.line .periodic .periodic) (evolveUpdate (isoKernel 1 3 (fun _ => 1) (isoTerm (fun a => a ^ 3) 1 3)) 1) (fun _ _ => [1, 9 / 10, 1]) = .ok σ' ∧
    Compare.AllNodes (Conserve.line .periodic .periodic) (fun v => v.getD 0 0 < v.getD 1 0) (σ' 0) := by
  obtain ⟨σ', e, h⟩ := iso_one (n := 3) (line_room .periodic (by decide)) (fun _ => (1 : ℝ)) (isoTerm (fun a => a ^ 3) 1 3) (σ := fun _ _ => [1, 9 / 10, 1]) fun _ _ => rfl
  refine ⟨σ', e, fun x hx => ?_⟩
  rw [h x hx]
  beta_reduce
  rw [getD_map (by decide), getD_map (by decide), isoTerm_node (by decide) (w := fun _ => 1) fun _ _ => by simp [lapWeight], isoTerm_node (by decide) (w := fun _ => 1) fun _ _ => by simp [lapWeight]]
  have ec : ∀ y, cellAt (Conserve.line .periodic .periodic) (fun _ => [1, 9 / 10, (1 : ℝ)]) y = [1, 9 / 10, 1] := fun _ => rfl
  simp only [ec]
  unfold node
  norm_num [Finset.sum_range_succ, Conserve.line]

/-! ## Examples -/

/-- More of the first grain in the second run. -/
example : ∃ σ' τ' : Grids (List ℝ), serialRun (Conserve.line .periodic .periodic) (evolveUpdate (isoKernel 1 2 (fun _ => 1) (isoTerm (fun a => a ^ 3) (1 / 100) 2)) 1000) (fun _ n => if n = 1 then [1, 0] else [0, 1]) = .ok σ' ∧
    serialRun (Conserve.line .periodic .periodic) (evolveUpdate (isoKernel 1 2 (fun _ => 1) (isoTerm (fun a => a ^ 3) (1 / 100) 2)) 1000) (fun _ n => if n = 1 then [1, 0] else [1 / 5, 1 / 2]) = .ok τ' ∧
    Compare.Pairs (Conserve.line .periodic .periodic) (Ahead 2 0 1 fun _ => true) (σ' 0) (τ' 0) := by
  refine growth_order (line_room .periodic (by decide)) (w := fun _ => 1) (fun _ _ => by simp [lapWeight]) (shipped_small (by decide) (by decide)) 1000 fun x _ => ?_
  show Ahead 2 0 1 _ (if _ = (1 : Int) then [(1 : ℝ), 0] else [0, 1]) (if _ = (1 : Int) then [(1 : ℝ), 0] else [1 / 5, 1 / 2])
  split_ifs <;> refine ⟨rfl, rfl, fun j hj => ?_, fun j hj h => ?_, by norm_num, fun _ j _ h => by simp at h⟩ <;> interval_cases j <;> norm_num at *

/-- Zener pinning: the same particle in both runs. -/
example : ∃ σ' τ' : Grids (List ℝ), serialRun (Conserve.line .periodic .periodic) (evolveUpdate (isoKernel 1 3 (fun _ => 1) (zenerTerm (fun a => a ^ 3) (1 / 100) 3)) 1000) (fun _ n => if n = 1 then [1, 0, 0] else [0, 0, 1]) = .ok σ' ∧
    serialRun (Conserve.line .periodic .periodic) (evolveUpdate (isoKernel 1 3 (fun _ => 1) (zenerTerm (fun a => a ^ 3) (1 / 100) 3)) 1000) (fun _ n => if n = 1 then [1, 0, 0] else [0, 1 / 5, 1 / 2]) = .ok τ' ∧
    Compare.Pairs (Conserve.line .periodic .periodic) (Ahead 3 1 2 fun j => j != 0) (σ' 0) (τ' 0) := by
  refine zener_order (line_room .periodic (by decide)) (w := fun _ => 1) (fun _ _ => by simp [lapWeight]) (shipped_small (by decide) (by decide)) 1000 fun x _ => ?_
  show Ahead 3 1 2 _ (if _ = (1 : Int) then [(1 : ℝ), 0, 0] else [0, 0, 1]) (if _ = (1 : Int) then [(1 : ℝ), 0, 0] else [0, 1 / 5, 1 / 2])
  split_ifs <;> refine ⟨rfl, rfl, fun j hj => ?_, fun j hj h => ?_, by norm_num, fun _ j hj h => ?_⟩ <;> interval_cases j <;> norm_num at *

/-- One grain: a particle in one node against none. -/
example : ∃ σ' τ' : Grids (List ℝ), serialRun (Conserve.line .periodic .periodic) (evolveUpdate (isoKernel 1 2 (fun _ => 1) (zenerTerm (fun a => a ^ 3) (1 / 100) 2)) 1000) (fun _ n => if n = 1 then [1, 0] else [0, 1]) = .ok σ' ∧
    serialRun (Conserve.line .periodic .periodic) (evolveUpdate (isoKernel 1 2 (fun _ => 1) (zenerTerm (fun a => a ^ 3) (1 / 100) 2)) 1000) (fun _ _ => [0, 1]) = .ok τ' ∧
    Compare.Pairs (Conserve.line .periodic .periodic) (Ahead 2 1 0 fun j => j != 0) (σ' 0) (τ' 0) := by
  refine particles_order (line_room .periodic (by decide)) (w := fun _ => 1) (fun _ _ => by simp [lapWeight]) (shipped_small (by decide) (by decide)) 1000 fun x _ => ?_
  show Ahead 2 1 0 _ (if _ = (1 : Int) then [(1 : ℝ), 0] else [0, 1]) [0, 1]
  split_ifs <;> refine ⟨rfl, rfl, fun j hj => ?_, fun j hj h => ?_, by norm_num, fun h => by simp at h⟩ <;> interval_cases j <;> norm_num at *

/-- Three grains, the third nowhere above the first: PF2MC never shows it. -/
example : ∃ σ' : Grids (List ℝ), serialRun (Conserve.line .periodic .periodic) (evolveUpdate (isoKernel 1 3 (fun _ => 1) (isoTerm (fun a => a ^ 3) (1 / 100) 3)) 1000) (fun _ n => if n = 1 then [1, 0, 1 / 2] else [1 / 5, 1, 1 / 5]) = .ok σ' ∧
    Compare.AllNodes (Conserve.line .periodic .periodic) (fun v => Convert.dominant 3 v ≠ .ok 2) (σ' 0) := by
  obtain ⟨σ', e, h⟩ := growth_below (n := 3) (k := 2) (j := 0) (line_room .periodic (by decide)) (by decide) (by decide) (dx := fun _ => 1) (w := fun _ => 1) (fun _ _ => by simp [lapWeight])
    (shipped_small (by decide) (by decide)) 1000 (σ := fun _ n => if n = 1 then [1, 0, 1 / 2] else [1 / 5, 1, 1 / 5]) fun x _ => by
      show Below 3 2 0 (if _ = (1 : Int) then [(1 : ℝ), 0, 1 / 2] else [1 / 5, 1, 1 / 5])
      split_ifs <;> refine ⟨rfl, fun j hj => ?_, by norm_num⟩ <;> interval_cases j <;> norm_num
  exact ⟨σ', e, fun x hx => below_not_shown (by decide) (by decide) (h x hx)⟩

/-- Two grains change names. -/
example : ∃ σ' τ' : Grids (List ℝ), serialRun (Conserve.line .periodic .periodic) (evolveUpdate (isoKernel 1 2 (fun _ => 1) (isoTerm (fun a => a ^ 3) (1 / 100) 2)) 1000) (fun _ n => if n = 1 then [1, 0] else [0, 1]) = .ok σ' ∧
    serialRun (Conserve.line .periodic .periodic) (evolveUpdate (isoKernel 1 2 (fun _ => 1) (isoTerm (fun a => a ^ 3) (1 / 100) 2)) 1000) (fun _ n => if n = 1 then [0, 1] else [1, 0]) = .ok τ' ∧
    Compare.Pairs (Conserve.line .periodic .periodic) (Renumbered 2 (Equiv.swap 0 1)) (σ' 0) (τ' 0) := by
  refine (growth_renumbered (line_room .periodic (by decide)) (fun j => ?_) _ _ 1000 fun x _ => ?_).1
  · rw [Equiv.swap_apply_def]; split_ifs <;> omega
  · show Renumbered 2 _ (if _ = (1 : Int) then [(1 : ℝ), 0] else [0, 1]) (if _ = (1 : Int) then [(0 : ℝ), 1] else [1, 0])
    split_ifs <;> refine ⟨rfl, rfl, fun j hj => ?_⟩ <;> interval_cases j <;> simp

/-- Three grains in `double`s, two of them everywhere equal. -/
example : ∃ σ', serialRun (Conserve.line .periodic .periodic) (evolveUpdate (isoKernel 1 3 (fun _ => 1) (isoTerm timesThree IeeeConfine.dt 3)) 1000) (fun _ n => if n = 1 then [1, 0, 0] else [0, 1, 1]) = .ok σ' ∧
    Compare.AllNodes (Conserve.line .periodic .periodic) (fun v => v.length = 3 ∧ v.getD 1 0 = v.getD 2 0) (σ' 0) := by
  refine (twins (j := 1) (k := 2) (line_room .periodic (by decide)) (by decide) (by decide) timesThree IeeeConfine.dt (fun _ => 1) 1000 fun x _ => ?_).1
  show (if _ = (1 : Int) then [(1 : Num double), 0, 0] else [0, 1, 1]).length = 3 ∧ (if _ = (1 : Int) then [(1 : Num double), 0, 0] else [0, 1, 1]).getD 1 0 = (if _ = (1 : Int) then [(1 : Num double), 0, 0] else [0, 1, 1]).getD 2 0
  split_ifs <;> exact ⟨rfl, rfl⟩

/-- Three fields in `double`s, one of them absent. -/
example : ∃ σ', serialRun (Conserve.line .periodic .periodic) (evolveUpdate (isoKernel 1 3 (fun _ => 1) (isoTerm timesThree IeeeConfine.dt 3)) 1000) (fun _ n => if n = 1 then [1, 0, 0] else [0, 0, 1]) = .ok σ' ∧
    Compare.AllNodes (Conserve.line .periodic .periodic) (fun v => Is (v.getD 1 0) 0) (σ' 0) := by
  have hc := timesThree_cubed double_good
  obtain ⟨σ', e, _, _, h⟩ := field_reach hc.1 hc.2.2 (line_room .periodic (by decide)) (shipped_gentle (d := 1) (by decide)) IeeeConfine.dt_is (n := 3) (by decide) (unit_weights _) (.inl rfl) (j := 1) (by decide) 1000
    (σ := fun _ n => if n = 1 then [1, 0, 0] else [0, 0, 1]) fun x _ => by
      show Fracs 3 (if _ = (1 : Int) then [(1 : Num double), 0, 0] else [0, 0, 1])
      split_ifs <;> refine ⟨rfl, fun a ha => ?_⟩ <;> simp at ha <;> rcases ha with rfl | rfl <;> first | exact one_frac | exact zero_frac
  refine ⟨σ', e, h fun x _ => ?_⟩
  show Is ((if _ = (1 : Int) then [(1 : Num double), 0, 0] else [0, 0, 1]).getD 1 0) 0
  split_ifs <;> exact is_zero

end MMSP.DenseDistance
