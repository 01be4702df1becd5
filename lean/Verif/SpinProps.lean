import Verif.Spin
import Verif.Conserve
import Mathlib.Algebra.BigOperators.Fin
import Mathlib.Algebra.BigOperators.Group.Finset.Piecewise
import Mathlib.Tactic.Linarith
import Mathlib.Tactic.Ring
/-!
# Spin models: state space, energies, acceptance (C43, C52)
-/

namespace MMSP.Spin

open Stencil Finset Conserve

/-! ## The neighbourhood -/

/-- The displacements visited by the nested loops over the axes listed. -/
def offsets : List Nat → List (Nat → Int)
  | [] => [fun _ => 0]
  | j :: js => [-1, 0, 1].flatMap fun i : Int => (offsets js).map fun o => Function.update o j i

/-- A displacement by at most one along each axis. -/
def Near (o : Nat → Int) : Prop := ∀ j, -1 ≤ o j ∧ o j ≤ 1

/-- `x` moved by `o`. -/
def shift (x o : Nat → Int) : Nat → Int := fun j => x j + o j

theorem near_zero : Near fun _ => 0 := fun _ => ⟨(by decide : (-1 : Int) ≤ 0), (by decide : (0 : Int) ≤ 1)⟩

theorem mem_offsets {axes : List Nat} (hn : axes.Nodup) {o : Nat → Int} : o ∈ offsets axes ↔ Near o ∧ ∀ j, j ∉ axes → o j = 0 := by
  induction axes generalizing o with
  | nil =>
    simp only [offsets, List.mem_singleton, List.not_mem_nil, not_false_eq_true, forall_true_left]
    constructor
    · rintro rfl; exact ⟨near_zero, fun _ => rfl⟩
    · rintro ⟨-, h⟩; funext j; exact h j
  | cons a as ih =>
    rw [List.nodup_cons] at hn
    simp only [offsets, List.mem_flatMap, List.mem_map]
    constructor
    · rintro ⟨i, hi, o', ho', rfl⟩
      obtain ⟨h1, h2⟩ := (ih hn.2).1 ho'
      have hi' : -1 ≤ i ∧ i ≤ 1 := by
        simp only [List.mem_cons, List.not_mem_nil, or_false] at hi; omega
      refine ⟨fun j => ?_, fun j hj => ?_⟩
      · by_cases e : j = a
        · subst e; rw [Function.update_self]; exact hi'
        · rw [Function.update_of_ne e]; exact h1 j
      · rw [List.mem_cons, not_or] at hj
        rw [Function.update_of_ne hj.1]; exact h2 j hj.2
    · rintro ⟨h1, h2⟩
      refine ⟨o a, ?_, Function.update o a 0, (ih hn.2).2 ⟨fun j => ?_, fun j hj => ?_⟩, ?_⟩
      · have := h1 a
        simp only [List.mem_cons, List.not_mem_nil, or_false]; omega
      · by_cases e : j = a
        · subst e; rw [Function.update_self]; exact ⟨by decide, by decide⟩
        · rw [Function.update_of_ne e]; exact h1 j
      · by_cases e : j = a
        · subst e; rw [Function.update_self]
        · rw [Function.update_of_ne e]; exact h2 j (by simp [e, hj])
      · rw [Function.update_idem, Function.update_eq_self]

theorem offsets_nodup {axes : List Nat} (hn : axes.Nodup) : (offsets axes).Nodup := by
  induction axes with
  | nil => simp [offsets]
  | cons a as ih =>
    rw [List.nodup_cons] at hn
    have hz : ∀ o ∈ offsets as, o a = 0 := fun o ho => ((mem_offsets hn.2).1 ho).2 a hn.1
    rw [offsets, List.nodup_flatMap]
    refine ⟨fun i _ => ?_, ?_⟩
    · apply List.Nodup.map_on _ (ih hn.2)
      intro o ho o' ho' e
      funext j
      by_cases h : j = a
      · subst h; rw [hz o ho, hz o' ho']
      · have := congrFun e j
        rwa [Function.update_of_ne h, Function.update_of_ne h] at this
    · have key : ∀ i i' : Int, i ≠ i' → List.Disjoint ((offsets as).map fun o => Function.update o a i) ((offsets as).map fun o => Function.update o a i') := by
        intro i i' hne o ho ho'
        rw [List.mem_map] at ho ho'
        obtain ⟨u, -, rfl⟩ := ho
        obtain ⟨v, -, e⟩ := ho'
        have := congrFun e a
        rw [Function.update_self, Function.update_self] at this
        exact hne this.symm
      simp only [List.pairwise_cons, List.mem_cons, List.not_mem_nil, or_false, Function.onFun]
      refine ⟨fun i hi => key _ _ (by omega), fun i hi => key _ _ (by omega), by simp⟩

/-- The nested loops visit the displaced points one after the other. -/
theorem boxFold_eq {σ : Type} (f : σ → (Nat → Int) → Outcome σ) {axes : List Nat} (hn : axes.Nodup) (x : Nat → Int) (a : σ) :
    boxFold f axes x a = (offsets axes).foldlM (fun a o => f a (shift x o)) a := by
  induction axes generalizing x a with
  | nil =>
    have : shift x (fun _ => 0) = x := by funext j; simp [shift]
    rw [boxFold, offsets, List.foldlM_cons, this]
    cases f a x <;> rfl
  | cons j js ih =>
    rw [List.nodup_cons] at hn
    have h1 : ∀ (i : Int) (a : σ), boxFold f js (bump x j i) a = ((offsets js).map fun o => Function.update o j i).foldlM (fun a o => f a (shift x o)) a := by
      intro i a
      rw [ih hn.2, List.foldlM_map]
      have hz : ∀ o ∈ offsets js, o j = 0 := fun o ho => ((mem_offsets hn.2).1 ho).2 j hn.1
      have : ∀ o ∈ offsets js, shift (bump x j i) o = shift x (Function.update o j i) := by
        intro o ho
        funext k
        unfold shift bump
        by_cases e : k = j
        · subst e; simp [hz o ho]
        · simp [Function.update_of_ne e]
      generalize offsets js = l at this
      clear ih hz
      induction l generalizing a with
      | nil => rfl
      | cons o l ihl =>
        rw [List.foldlM_cons, List.foldlM_cons, this o (by simp)]
        congr 1
        funext b
        exact ihl _ fun o' ho' => this o' (by simp [ho'])
    rw [boxFold, offsets, List.flatMap_cons, List.flatMap_cons, List.flatMap_cons, List.flatMap_nil]
    simp only [List.foldlM_append, List.foldlM_cons, List.foldlM_nil, h1, List.append_nil]
    congr 1
    funext b
    congr 1
    funext b
    simp only [bind_pure]

/-- Sums over the neighbourhood do not change when every displacement is reversed. -/
theorem sum_neg {R : Type} [AddCommMonoid R] (axes : List Nat) (f : (Nat → Int) → R) :
    ((offsets axes).map fun o => f (-o)).sum = ((offsets axes).map f).sum := by
  induction axes generalizing f with
  | nil =>
    have : (-(fun _ => 0) : Nat → Int) = fun _ => 0 := by funext j; simp
    simp [offsets, this]
  | cons j js ih =>
    have hu : ∀ (o : Nat → Int) (i : Int), -(Function.update o j i) = Function.update (-o) j (-i) := by
      intro o i; funext k
      by_cases e : k = j
      · subst e; simp
      · simp [Function.update_of_ne e]
    have h : ∀ i : Int, ((offsets js).map fun o => f (Function.update (-o) j i)).sum = ((offsets js).map fun o => f (Function.update o j i)).sum :=
      fun i => ih fun o => f (Function.update o j i)
    simp only [offsets, List.flatMap_cons, List.flatMap_nil, List.map_append, List.sum_append, List.map_map, List.append_nil, Function.comp_def, hu, neg_neg, neg_zero, h]
    abel

/-! ## Periodic grids -/

/-- A serial grid, periodic along every axis (the default of every constructor). -/
structure Torus (g : Shape) : Prop where
  wf : g.Wf
  ghosts : g.ghosts = 0
  lower : ∀ j < g.dim, g.b0 j = .periodic
  upper : ∀ j < g.dim, g.b1 j = .periodic

theorem Torus.serial {g : Shape} (h : Torus g) : Serial g := ⟨h.wf, h.ghosts, fun j hj => Or.inl ⟨h.lower j hj, h.upper j hj⟩⟩

/-- The node found at displacement `o` from node `n`. -/
def nbr (g : Shape) (o : Nat → Int) (n : Int) : Int := g.atVec .serial (shift (g.position n) o)

section
variable {g : Shape} (ht : Torus g)
include ht

theorem wrap {j : Nat} (hj : j < g.dim) {c o : Int} (h0 : g.x0 j ≤ c) (h1 : c < g.x1 j) (ho : -1 ≤ o ∧ o ≤ 1) :
    checkBoundary .serial (c + o) (g.x0 j) (g.x1 j) (g.b0 j) (g.b1 j) =
      if c + o < g.x0 j then g.x1 j - 1 else if g.x1 j ≤ c + o then g.x0 j else c + o := by
  rw [ht.lower j hj, ht.upper j hj]
  unfold checkBoundary
  by_cases a : c + o < g.x0 j
  · rw [if_pos a, if_pos a]; simp; omega
  · rw [if_neg a, if_neg a]
    by_cases b : g.x1 j ≤ c + o
    · rw [if_pos b, if_pos b]; simp; omega
    · rw [if_neg b, if_neg b]

theorem nbr_spec {o : Nat → Int} (ho : Near o) {n : Int} (h0 : 0 ≤ n) (h1 : n < g.nodes) :
    0 ≤ nbr g o n ∧ nbr g o n < g.nodes ∧ ∀ j < g.dim, g.position (nbr g o n) j =
      if g.position n j + o j < g.x0 j then g.x1 j - 1 else if g.x1 j ≤ g.position n j + o j then g.x0 j else g.position n j + o j := by
  have hp := Shape.position_isNode ht.wf h0 h1
  let y : Nat → Int := fun j => if g.position n j + o j < g.x0 j then g.x1 j - 1 else if g.x1 j ≤ g.position n j + o j then g.x0 j else g.position n j + o j
  have e : nbr g o n = g.rawOffset y := Shape.atVec_eq_raw .serial fun j hj => wrap ht hj (hp j hj).1 (hp j hj).2 (ho j)
  have hy : g.IsNode y := by
    intro j hj
    have := hp j hj
    have := ho j
    simp only [y]
    split_ifs <;> omega
  obtain ⟨a, b, c⟩ := position_rawOffset ht.serial hy
  rw [e]; exact ⟨a, b, c⟩

omit ht in
theorem near_neg {o : Nat → Int} (ho : Near o) : Near (-o) := fun j => by have := ho j; simp only [Pi.neg_apply]; omega

theorem nbr_neg {o : Nat → Int} (ho : Near o) {n : Int} (h0 : 0 ≤ n) (h1 : n < g.nodes) : nbr g (-o) (nbr g o n) = n := by
  obtain ⟨a0, a1, a⟩ := nbr_spec ht ho h0 h1
  obtain ⟨b0, b1, b⟩ := nbr_spec ht (near_neg ho) a0 a1
  have hp := Shape.position_isNode ht.wf h0 h1
  apply node_ext ht.serial b0 b1 h0 h1
  intro j hj
  rw [b j hj, a j hj]
  have := hp j hj
  have := ho j
  simp only [Pi.neg_apply]
  split_ifs <;> omega

/-- On axes with at least two nodes no displacement but the trivial one leads back. -/
theorem nbr_self {axes : List Nat} (hn : axes.Nodup) (hax : ∀ j ∈ axes, j < g.dim ∧ 2 ≤ g.x1 j - g.x0 j) {o : Nat → Int} (ho : o ∈ offsets axes) {n : Int} (h0 : 0 ≤ n)
    (h1 : n < g.nodes) : nbr g o n = n ↔ o = fun _ => 0 := by
  obtain ⟨hnear, hz⟩ := (mem_offsets hn).1 ho
  obtain ⟨a0, a1, a⟩ := nbr_spec ht hnear h0 h1
  have hp := Shape.position_isNode ht.wf h0 h1
  constructor
  · intro e
    funext j
    by_cases hj : j ∈ axes
    · obtain ⟨hd, h2⟩ := hax j hj
      have hk := a j hd
      rw [e] at hk
      have := hp j hd
      have := hnear j
      split_ifs at hk <;> omega
    · exact hz j hj
  · rintro rfl
    apply node_ext ht.serial a0 a1 h0 h1
    intro j hj
    rw [a j hj]
    have := hp j hj
    beta_reduce
    split_ifs <;> omega

theorem touches {o : Nat → Int} (ho : Near o) {n : Int} (h0 : 0 ≤ n) (h1 : n < g.nodes) : Touches .serial g (shift (g.position n) o) := by
  obtain ⟨a0, a1, -⟩ := nbr_spec ht ho h0 h1
  refine ⟨a0, ?_⟩
  rw [cells_eq_nodes ht.serial]; exact a1

/-! ## Changing one spin -/

variable {R : Type} [Ring R] {V : Type}

omit ht in
/-- Pair interactions summed over all nodes and all displacements (so every pair is counted from both ends). -/
def interaction (g : Shape) (axes : List Nat) (φ : V → V → R) (d : Int → V) : R :=
  ∑ n ∈ range g.nodes.toNat, ((offsets axes).map fun o => φ (d n) (d (nbr g o n))).sum

omit ht in
theorem sum_swap {β : Type} (l : List β) (k : Nat) (f : Nat → β → R) : ∑ n ∈ range k, (l.map fun o => f n o).sum = (l.map fun o => ∑ n ∈ range k, f n o).sum := by
  induction l with
  | nil => simp
  | cons o l ih => simp only [List.map_cons, List.sum_cons, Finset.sum_add_distrib, ih]

omit ht in
theorem list_sum_sub {β : Type} (l : List β) (f f' : β → R) : (l.map fun o => f o - f' o).sum = (l.map f).sum - (l.map f').sum := by
  induction l with
  | nil => simp
  | cons o l ih => simp only [List.map_cons, List.sum_cons, ih]; abel

/-- Replacing the spin of node `m` changes the interaction by twice the change at `m`; pairs of `m` with itself are only counted once. -/
theorem interaction_update {axes : List Nat} (hn : axes.Nodup) {φ : V → V → R} (hφ : ∀ a b, φ a b = φ b a) (d : Int → V) {m : Nat} (hm : m < g.nodes.toNat) (v : V) :
    interaction g axes φ (Function.update d (m : Int) v) - interaction g axes φ d =
      ((offsets axes).map fun o => if nbr g o m = m then φ v v - φ (d m) (d m) else 2 * (φ v (d (nbr g o m)) - φ (d m) (d (nbr g o m)))).sum := by
  have hm0 : (0 : Int) ≤ m := by omega
  have hm1 : (m : Int) < g.nodes := by omega
  let c : (Nat → Int) → R := fun o => if nbr g o m = m then 0 else φ v (d (nbr g o m)) - φ (d m) (d (nbr g o m))
  let s : (Nat → Int) → R := fun o => if nbr g o m = m then φ v v - φ (d m) (d m) else 0
  have key : ∀ o ∈ offsets axes, (∑ n ∈ range g.nodes.toNat, φ (Function.update d (m : Int) v n) (Function.update d (m : Int) v (nbr g o n))) -
      ∑ n ∈ range g.nodes.toNat, φ (d n) (d (nbr g o n)) = s o + (c o + c (-o)) := by
    intro o ho
    have hnear := ((mem_offsets hn).1 ho).1
    have hback : ∀ n : Nat, n < g.nodes.toNat → (nbr g o n = m ↔ (n : Int) = nbr g (-o) m) := by
      intro n hn'
      constructor
      · intro e; rw [← e, nbr_neg ht hnear (by omega) (by omega)]
      · intro e
        have := nbr_neg ht (near_neg hnear) hm0 hm1
        rw [neg_neg] at this
        rw [e, this]
    rw [← Finset.sum_sub_distrib]
    have hmm : nbr g o m = m ↔ nbr g (-o) m = m := by rw [hback m hm]; exact eq_comm
    obtain ⟨b0, b1, -⟩ := nbr_spec ht (near_neg hnear) hm0 hm1
    obtain ⟨b, hb⟩ : ∃ b : Nat, (b : Int) = nbr g (-o) m := ⟨(nbr g (-o) m).toNat, by omega⟩
    have hbr : b < g.nodes.toNat := by omega
    have hob : nbr g o b = m := (hback b hbr).2 hb
    by_cases e : nbr g o m = m
    · have : ∀ n ∈ range g.nodes.toNat, φ (Function.update d (m : Int) v n) (Function.update d (m : Int) v (nbr g o n)) - φ (d n) (d (nbr g o n)) = if n = m then φ v v - φ (d m) (d m) else 0 := by
        intro n hn'
        rw [Finset.mem_range] at hn'
        by_cases h : n = m
        · subst h; rw [if_pos rfl, e, Function.update_self]
        · have h1 : (n : Int) ≠ m := by omega
          have h2 : nbr g o n ≠ m := by
            intro e2
            rw [hback n hn', hmm.1 e] at e2
            omega
          rw [if_neg h, Function.update_of_ne h1, Function.update_of_ne h2, sub_self]
      rw [Finset.sum_congr rfl this, Finset.sum_ite_eq', if_pos (Finset.mem_range.2 hm)]
      simp only [s, c, if_pos e, if_pos (hmm.1 e)]
      abel
    · have e' : ¬ nbr g (-o) m = m := fun h => e (hmm.2 h)
      have hbm : b ≠ m := by omega
      have : ∀ n ∈ range g.nodes.toNat, φ (Function.update d (m : Int) v n) (Function.update d (m : Int) v (nbr g o n)) - φ (d n) (d (nbr g o n)) =
          (if n = m then c o else 0) + if n = b then c (-o) else 0 := by
        intro n hn'
        rw [Finset.mem_range] at hn'
        by_cases h : n = m
        · subst h
          rw [if_pos rfl, if_neg (by omega), Function.update_self, Function.update_of_ne e]
          simp only [c, if_neg e, add_zero]
        · have h1 : (n : Int) ≠ m := by omega
          rw [if_neg h, Function.update_of_ne h1]
          by_cases h2 : n = b
          · subst h2
            rw [if_pos rfl, hob, Function.update_self]
            simp only [c, if_neg e', zero_add, ← hb]
            rw [hφ _ v, hφ _ (d m)]
          · have h3 : nbr g o n ≠ m := by
              rw [Ne, hback n hn']; omega
            rw [if_neg h2, Function.update_of_ne h3, sub_self, add_zero]
      rw [Finset.sum_congr rfl this, Finset.sum_add_distrib, Finset.sum_ite_eq', Finset.sum_ite_eq', if_pos (Finset.mem_range.2 hm), if_pos (Finset.mem_range.2 hbr)]
      simp only [s, if_neg e, zero_add]
  have h1 : interaction g axes φ (Function.update d (m : Int) v) - interaction g axes φ d = ((offsets axes).map fun o => s o + (c o + c (-o))).sum := by
    unfold interaction
    rw [sum_swap, sum_swap, ← list_sum_sub]
    congr 1
    exact List.map_congr_left key
  have h2 : ((offsets axes).map fun o => s o + (c o + c (-o))).sum = ((offsets axes).map fun o => s o + (c o + c o)).sum := by
    rw [List.sum_map_add, List.sum_map_add, List.sum_map_add, List.sum_map_add, sum_neg axes c]
  rw [h1, h2]
  congr 1
  apply List.map_congr_left
  intro o _
  simp only [s, c]
  split_ifs
  · abel
  · rw [zero_add, two_mul]

/-! ## Energies -/

omit ht in
theorem fold_sum {β : Type} (l : List β) (f : β → Outcome R) (v : β → R) (h : ∀ o ∈ l, f o = .ok (v o)) (a : R) :
    l.foldlM (fun a o => (f o).bind fun s => Outcome.ok (a + s)) a = .ok (a + (l.map v).sum) := by
  induction l generalizing a with
  | nil => simp [Outcome.pure_eq]
  | cons o l ih =>
    rw [List.foldlM_cons, h o (by simp), Outcome.ok_bind, Outcome.bind_eq, Outcome.ok_bind, ih (fun o' ho' => h o' (by simp [ho'])), List.map_cons, List.sum_cons]
    congr 1
    abel

/-- A sum over the neighbourhood as the loops compute it. -/
theorem boxSum_eq {axes : List Nat} (hn : axes.Nodup) (d : Int → V) (f : V → R) {n : Int} (h0 : 0 ≤ n) (h1 : n < g.nodes) (a : R) :
    boxFold (fun a y => (gridAt .serial g d y).bind fun s => Outcome.ok (a + f s)) axes (g.position n) a =
      .ok (a + ((offsets axes).map fun o => f (d (nbr g o n))).sum) := by
  rw [boxFold_eq _ hn]
  have := fold_sum (offsets axes) (fun o => (gridAt .serial g d (shift (g.position n) o)).bind fun s => Outcome.ok (f s)) (fun o => f (d (nbr g o n)))
    (fun o ho => by rw [gridAt_ok (touches ht ((mem_offsets hn).1 ho).1 h0 h1), Outcome.ok_bind]; rfl) a
  rw [← this]
  congr 1
  funext a o
  by_cases hh : Touches .serial g (shift (g.position n) o)
  · rw [gridAt_ok hh]; rfl
  · rw [gridAt_ub hh]; rfl

omit ht in
open Classical in
/-- The trivial displacement is one of those visited. -/
theorem split_zero {axes : List Nat} (hn : axes.Nodup) (f : (Nat → Int) → R) (z : R) :
    ((offsets axes).map fun o => if o = (fun _ => 0) then z else f o).sum = ((offsets axes).map f).sum - f (fun _ => 0) + z := by
  have hmem : (fun _ => 0 : Nat → Int) ∈ offsets axes := (mem_offsets hn).2 ⟨near_zero, fun _ _ => rfl⟩
  have hnd := offsets_nodup hn
  generalize (fun _ => 0 : Nat → Int) = u at hmem ⊢
  generalize offsets axes = l at hmem hnd ⊢
  obtain ⟨l1, l2, rfl⟩ := List.append_of_mem hmem
  rw [List.nodup_append] at hnd
  have h1 : ∀ o ∈ l1, o ≠ u := fun o ho => hnd.2.2 o ho u (by simp)
  have h2 : ∀ o ∈ l2, o ≠ u := fun o ho e => by
    have := (List.nodup_cons.1 hnd.2.1).1; exact this (e ▸ ho)
  simp only [List.map_append, List.map_cons, List.sum_append, List.sum_cons, if_true]
  rw [List.map_congr_left (fun o ho => if_neg (h1 o ho)), List.map_congr_left (fun o ho => if_neg (h2 o ho))]
  abel

end

/-- 1 for a pair of unlike spins. -/
def unlike (a b : Int) : Int := if a ≠ b then 1 else 0

theorem unlike_comm (a b : Int) : unlike a b = unlike b a := by unfold unlike; simp only [ne_comm]

/-- Axes of a box in which every neighbour is another node. -/
def Wide (g : Shape) (axes : List Nat) : Prop := axes.Nodup ∧ ∀ j ∈ axes, j < g.dim ∧ 2 ≤ g.x1 j - g.x0 j

/-- **C52.** The sum computed for a proposed spin different from the present one is half the change of the number of unlike neighbour pairs, each pair counted from both ends:
that is the change of the number of unlike pairs. -/
theorem energySum_spec {g : Shape} (ht : Torus g) {axes : List Nat} (hw : Wide g axes) (d : Int → Int) {m : Nat} (hm : m < g.nodes.toNat) {spin2 : Int} (hne : spin2 ≠ d m) :
    ∃ s, energySum .serial g d axes (g.position m) (d m) spin2 = .ok s ∧
      interaction g axes unlike (Function.update d (m : Int) spin2) - interaction g axes unlike d = 2 * s := by
  classical
  refine ⟨_, boxSum_eq ht hw.1 d (change (d m) spin2) (by omega) (by omega) (-1), ?_⟩
  rw [interaction_update ht hw.1 unlike_comm d hm]
  have h1 : ∀ o ∈ offsets axes, (if nbr g o m = m then unlike spin2 spin2 - unlike (d m) (d m) else 2 * (unlike spin2 (d (nbr g o m)) - unlike (d m) (d (nbr g o m)))) =
      if o = (fun _ => 0) then 0 else 2 * change (d m) spin2 (d (nbr g o m)) := by
    intro o ho
    have := nbr_self ht hw.1 hw.2 ho (n := (m : Int)) (by omega) (by omega)
    by_cases e : o = fun _ => 0
    · rw [if_pos (this.2 e), if_pos e]; simp [unlike]
    · rw [if_neg (fun h => e (this.1 h)), if_neg e]
      unfold unlike change
      simp only [ne_comm]
  rw [List.map_congr_left h1, split_zero hw.1]
  have h0 : nbr g (fun _ => 0) m = m := (nbr_self ht hw.1 hw.2 ((mem_offsets hw.1).2 ⟨near_zero, fun _ _ => rfl⟩) (by omega) (by omega)).2 rfl
  rw [h0, List.sum_map_mul_left]
  have : change (d m) spin2 (d m) = 1 := by simp [change, hne.symm]
  rw [this]; ring

/-- The proposed spin is the present one: the sum is -1. -/
theorem energySum_same {g : Shape} (ht : Torus g) {axes : List Nat} (hn : axes.Nodup) (d : Int → Int) {m : Nat} (hm : m < g.nodes.toNat) :
    energySum .serial g d axes (g.position m) (d m) (d m) = .ok (-1) := by
  have := boxSum_eq ht hn d (change (d m) (d m)) (n := (m : Int)) (by omega) (by omega) (-1)
  unfold energySum
  rw [this]
  have h : ∀ s, change (d m) (d m) s = 0 := fun s => by simp [change]
  simp [h]

/-! ## Ising -/

/-- The numbering of a serial grid: node `p` is array element `p`. -/
theorem cell_ok {g : Shape} (ht : Torus g) {m : Nat} (hm : m < g.nodes.toNat) : 0 ≤ g.atNode .serial m ∧ g.atNode .serial m < g.cells :=
  ⟨Int.natCast_nonneg m, by rw [cells_eq_nodes ht.serial]; show (m : Int) < _; omega⟩

theorem range_wide {g : Shape} (hside : ∀ j < g.dim, 2 ≤ g.x1 j - g.x0 j) : Wide g (List.range g.dim) :=
  ⟨List.nodup_range, fun j hj => ⟨List.mem_range.1 hj, hside j (List.mem_range.1 hj)⟩⟩

theorem metropolis {β : Type} (p : Prop) [Decidable p] (b : Bool) (x y : β) :
    (if p then Outcome.ok x else if b = true then Outcome.ok x else Outcome.ok y) = .ok (if p ∨ b = true then x else y) := by
  by_cases hp : p
  · rw [if_pos hp, if_pos (Or.inl hp)]
  · by_cases hb : b = true
    · rw [if_neg hp, if_pos hb, if_pos (Or.inr hb)]
    · rw [if_neg hp, if_neg hb, if_neg (not_or.2 ⟨hp, hb⟩)]

/-- A flip ends with either the old array or the array with the spin of one node reversed; with which of them is decided by the energy change. -/
theorem isingFlip_cases {g : Shape} (ht : Torus g) (hot : ℚ → Nat → Bool) (d : Int → Int) (r : Nat × Nat) :
    ∃ m : Nat, m < g.nodes.toNat ∧ ∃ s, energySum .serial g d (List.range g.dim) (g.position m) (d m) (-d m) = .ok s ∧
      isingFlip .serial g hot d r = .ok (if isingEnergy s (d m) (-d m) ≤ 0 ∨ hot (isingEnergy s (d m) (-d m)) r.2 = true then Function.update d (m : Int) (-d m) else d) := by
  have hpos : 0 < g.nodes.toNat := by
    rw [Shape.nodes_eq ht.wf]
    have := Finset.prod_pos fun j (hj : j ∈ range g.dim) => Shape.xx_radix_pos ht.wf j (Finset.mem_range.1 hj)
    omega
  have hm := Nat.mod_lt r.1 hpos
  refine ⟨r.1 % g.nodes.toNat, hm, _, boxSum_eq ht List.nodup_range d (change (d _) (-d _)) (by omega) (by omega) (-1), ?_⟩
  unfold isingFlip
  rw [if_neg (by omega)]
  have hc := cell_ok ht hm
  have hd : deref g d (g.atNode .serial (r.1 % g.nodes.toNat : Nat)) = .ok (d (r.1 % g.nodes.toNat : Nat)) := if_pos hc
  have hst : ∀ v, store g d (g.atNode .serial (r.1 % g.nodes.toNat : Nat)) v = .ok (Function.update d ((r.1 % g.nodes.toNat : Nat) : Int) v) := fun v => if_pos hc
  dsimp only
  rw [hd, Outcome.ok_bind, energySum, boxSum_eq ht List.nodup_range d _ (by omega) (by omega) (-1), Outcome.ok_bind, hst]
  exact metropolis _ _ _ _

/-- **C43.** Any number of Ising flips, whatever is drawn and whatever the acceptance test for positive energy changes, runs without undefined behaviour, keeps every spin up
or down, and changes nothing but spins of nodes. -/
theorem ising_states {g : Shape} (ht : Torus g) (hot : ℚ → Nat → Bool) (draws : List (Nat × Nat)) {d : Int → Int} (hd : ∀ n : Nat, n < g.nodes.toNat → d n = 1 ∨ d n = -1) :
    ∃ d', isingRun .serial g hot draws d = .ok d' ∧ (∀ n : Nat, n < g.nodes.toNat → d' n = 1 ∨ d' n = -1) ∧ ∀ p : Int, (∀ n : Nat, n < g.nodes.toNat → p ≠ n) → d' p = d p := by
  induction draws generalizing d with
  | nil => exact ⟨d, rfl, hd, fun _ _ => rfl⟩
  | cons r draws ih =>
    obtain ⟨m, hm, s, -, e⟩ := isingFlip_cases ht hot d r
    generalize hd1 : (if isingEnergy s (d m) (-d m) ≤ 0 ∨ hot (isingEnergy s (d m) (-d m)) r.2 = true then Function.update d (m : Int) (-d m) else d) = d1 at e
    have h1 : (∀ n : Nat, n < g.nodes.toNat → d1 n = 1 ∨ d1 n = -1) ∧ ∀ p : Int, (∀ n : Nat, n < g.nodes.toNat → p ≠ n) → d1 p = d p := by
      rw [← hd1]
      split_ifs
      · refine ⟨fun n hn => ?_, fun p hp => Function.update_of_ne (hp m hm) _ _⟩
        by_cases h : (n : Int) = m
        · rw [h, Function.update_self]; have := hd m hm; omega
        · rw [Function.update_of_ne h]; exact hd n hn
      · exact ⟨hd, fun _ _ => rfl⟩
    obtain ⟨d', e', h2, h3⟩ := ih h1.1
    refine ⟨d', ?_, h2, fun p hp => by rw [h3 p hp, h1.2 p hp]⟩
    unfold isingRun at e' ⊢
    rw [List.foldlM_cons, e]; exact e'

/-- **C43.** A flip whose energy change is not positive is made, whatever is drawn for the acceptance test. -/
theorem ising_downhill {g : Shape} (ht : Torus g) (hot : ℚ → Nat → Bool) (d : Int → Int) (r : Nat × Nat) {s : Int}
    (hs : energySum .serial g d (List.range g.dim) (g.position (r.1 % g.nodes.toNat : Nat)) (d (r.1 % g.nodes.toNat : Nat)) (-d (r.1 % g.nodes.toNat : Nat)) = .ok s)
    (h : isingEnergy s (d (r.1 % g.nodes.toNat : Nat)) (-d (r.1 % g.nodes.toNat : Nat)) ≤ 0) (hpos : 0 < g.nodes.toNat) :
    isingFlip .serial g hot d r = .ok (Function.update d ((r.1 % g.nodes.toNat : Nat) : Int) (-d (r.1 % g.nodes.toNat : Nat))) := by
  have hc := cell_ok ht (Nat.mod_lt r.1 hpos)
  unfold isingFlip
  rw [if_neg (by omega)]
  have hd : deref g d (g.atNode .serial (r.1 % g.nodes.toNat : Nat)) = .ok (d (r.1 % g.nodes.toNat : Nat)) := if_pos hc
  dsimp only
  rw [hd, Outcome.ok_bind, hs, Outcome.ok_bind, if_pos h]
  exact if_pos hc

/-- Energy of a configuration with pair coupling `c` for every pair of unlike neighbours and field `H = 1`. The ferromagnet has `c > 0`: unlike neighbours cost energy. -/
def isingTotal (g : Shape) (c : ℚ) (d : Int → Int) : ℚ :=
  c * ((interaction g (List.range g.dim) unlike d : Int) / 2 : ℚ) - ∑ n ∈ range g.nodes.toNat, (d n : ℚ)

theorem sum_update {R : Type} [AddCommGroup R] (d : Int → Int) {k m : Nat} (hm : m < k) (v : Int) (F : Int → R) :
    ∑ n ∈ range k, F (Function.update d (m : Int) v n) - ∑ n ∈ range k, F (d n) = F v - F (d m) := by
  rw [← Finset.sum_sub_distrib, Finset.sum_eq_single m]
  · rw [Function.update_self]
  · intro n _ h
    rw [Function.update_of_ne (by omega), sub_self]
  · intro h; exact absurd (Finset.mem_range.2 hm) h

/-- **C52.** What the Ising example computes as the energy change of a flip is the change of the energy with coupling -1: like neighbours cost energy, unlike neighbours are
rewarded. -/
theorem ising_energy {g : Shape} (ht : Torus g) (hside : ∀ j < g.dim, 2 ≤ g.x1 j - g.x0 j) (d : Int → Int) {m : Nat} (hm : m < g.nodes.toNat) (hne : d m ≠ 0) :
    ∃ s, energySum .serial g d (List.range g.dim) (g.position m) (d m) (-d m) = .ok s ∧
      isingEnergy s (d m) (-d m) = isingTotal g (-1) (Function.update d (m : Int) (-d m)) - isingTotal g (-1) d := by
  obtain ⟨s, e, h⟩ := energySum_spec ht (range_wide hside) d hm (spin2 := -d m) (by omega)
  refine ⟨s, e, ?_⟩
  have h1 := sum_update d hm (-d m) (fun v => (v : ℚ))
  have h2 : ((interaction g (List.range g.dim) unlike (Function.update d (m : Int) (-d m)) : Int) : ℚ) - ((interaction g (List.range g.dim) unlike d : Int) : ℚ) = 2 * s := by exact_mod_cast h
  unfold isingEnergy isingTotal
  linarith

/-- **C43, C52.** Without thermal acceptance no run raises the energy (with coupling -1). -/
theorem ising_descends {g : Shape} (ht : Torus g) (hside : ∀ j < g.dim, 2 ≤ g.x1 j - g.x0 j) (draws : List (Nat × Nat)) {d : Int → Int}
    (hd : ∀ n : Nat, n < g.nodes.toNat → d n = 1 ∨ d n = -1) :
    ∃ d', isingRun .serial g (fun _ _ => false) draws d = .ok d' ∧ isingTotal g (-1) d' ≤ isingTotal g (-1) d := by
  induction draws generalizing d with
  | nil => exact ⟨d, rfl, le_refl _⟩
  | cons r draws ih =>
    obtain ⟨m, hm, s, e0, e⟩ := isingFlip_cases ht (fun _ _ => false) d r
    obtain ⟨s', e1, h1⟩ := ising_energy ht hside d hm (by have := hd m hm; omega)
    have : s = s' := by rw [e0] at e1; injection e1
    subst this
    obtain ⟨dd, e2, h2, -⟩ := ising_states ht (fun _ _ => false) [r] hd
    have e3 : isingFlip .serial g (fun _ _ => false) d r = .ok dd := by
      unfold isingRun at e2
      rw [List.foldlM_cons] at e2
      cases hf : isingFlip .serial g (fun _ _ => false) d r <;> rw [hf] at e2 <;> simp_all [Outcome.bind_eq, Outcome.pure_eq]
    obtain ⟨d', e4, h4⟩ := ih h2
    refine ⟨d', ?_, le_trans h4 ?_⟩
    · unfold isingRun at e4 ⊢
      rw [List.foldlM_cons, e3]; exact e4
    · rw [e3] at e
      injection e with e
      rw [e]
      by_cases hc : isingEnergy s (d m) (-d m) ≤ 0
      · rw [if_pos (Or.inl hc)]; linarith
      · rw [if_neg (by simp [not_le.1 hc])]

theorem offsets_length {g : Shape} (ht : Torus g) : 3 ≤ (offsets (List.range g.dim)).length := by
  have := ht.wf.dim_pos
  obtain ⟨k, hk⟩ : ∃ k, g.dim = k + 1 := ⟨g.dim - 1, by omega⟩
  rw [hk, List.range_succ_eq_map]
  simp only [offsets, List.flatMap_cons, List.flatMap_nil, List.length_append, List.length_map, List.length_nil]
  have : 0 < (offsets ((List.range k).map Nat.succ)).length := by
    apply List.length_pos_of_mem (a := fun _ => 0)
    exact (mem_offsets (List.nodup_range.map fun _ _ h => Nat.succ.inj h)).2 ⟨near_zero, fun _ _ => rfl⟩
  omega

/-- **C52.** The notes call it a model of ferromagnetism. In the ferromagnetic ground state, all spins up along the field, the first attempted flip is made, whatever is drawn,
although it raises the energy of the ferromagnet. -/
theorem ising_leaves_ground_state {g : Shape} (ht : Torus g) (hside : ∀ j < g.dim, 2 ≤ g.x1 j - g.x0 j) (hot : ℚ → Nat → Bool) {d : Int → Int}
    (hd : ∀ n : Nat, n < g.nodes.toNat → d n = 1) (r : Nat × Nat) :
    ∃ m : Nat, m < g.nodes.toNat ∧ isingFlip .serial g hot d r = .ok (Function.update d (m : Int) (-1)) ∧ isingTotal g 1 d < isingTotal g 1 (Function.update d (m : Int) (-1)) := by
  obtain ⟨m, hm, s, e0, e⟩ := isingFlip_cases ht hot d r
  have hdm := hd m hm
  have key : s = -1 + ((offsets (List.range g.dim)).map fun _ => (1 : Int)).sum := by
    have h := boxSum_eq ht (axes := List.range g.dim) List.nodup_range d (change (d m) (-d m)) (n := (m : Int)) (by omega) (by omega) (-1)
    unfold energySum at e0
    rw [h] at e0
    injection e0 with e0
    rw [← e0]
    congr 2
    apply List.map_congr_left
    intro o ho
    obtain ⟨a, b, -⟩ := nbr_spec ht ((mem_offsets List.nodup_range).1 ho).1 (n := (m : Int)) (by omega) (by omega)
    have := hd (nbr g o m).toNat (by omega)
    rw [Int.toNat_of_nonneg a] at this
    rw [hdm, this]; decide
  simp only [List.map_const', List.sum_replicate, nsmul_eq_mul, mul_one] at key
  have hlen : (3 : ℚ) ≤ ((offsets (List.range g.dim)).length : ℚ) := by exact_mod_cast offsets_length ht
  have hE : isingEnergy s (d m) (-d m) ≤ 0 := by
    unfold isingEnergy
    rw [hdm, key]
    push_cast
    linarith
  refine ⟨m, hm, by rw [e, if_pos (Or.inl hE), hdm], ?_⟩
  obtain ⟨s', e1, h⟩ := energySum_spec ht (range_wide hside) d hm (spin2 := -d m) (by omega)
  have : s = s' := by rw [e0] at e1; injection e1
  subst this
  rw [hdm] at h
  have h1 := sum_update d hm (-1) (fun v => (v : ℚ))
  have h2 : ((interaction g (List.range g.dim) unlike (Function.update d (m : Int) (-1)) : Int) : ℚ) - ((interaction g (List.range g.dim) unlike d : Int) : ℚ) = 2 * s := by exact_mod_cast h
  rw [key] at h2
  rw [hdm] at h1
  unfold isingTotal
  push_cast at h1 h2
  linarith

/-! ## Potts -/

theorem nodes_pos {g : Shape} (ht : Torus g) : 0 < g.nodes.toNat := by
  rw [Shape.nodes_eq ht.wf]
  have := Finset.prod_pos fun j (hj : j ∈ range g.dim) => Shape.xx_radix_pos ht.wf j (Finset.mem_range.1 hj)
  omega

theorem pottsFlip_eq {g : Shape} (ht : Torus g) (hot : ℚ → Nat → Bool) (d : Int → Int) (r : Nat × Nat × Nat) {m : Nat} (hm : m = r.1 % g.nodes.toNat) {s : Int}
    (hs : pottsSum .serial g d (g.position m) (d m) (r.2.1 % 20 : Nat) = .ok s) :
    pottsFlip .serial g hot d r = .ok (if (s : ℚ) ≤ 0 ∨ hot s r.2.2 = true then Function.update d (m : Int) (r.2.1 % 20 : Nat) else d) := by
  have hpos := nodes_pos ht
  have hc := cell_ok ht (hm ▸ Nat.mod_lt r.1 hpos)
  unfold pottsFlip
  rw [if_neg (by omega), ← hm]
  have hd : deref g d (g.atNode .serial (m : Int)) = .ok (d m) := if_pos hc
  have hst : ∀ v, store g d (g.atNode .serial (m : Int)) v = .ok (Function.update d (m : Int) v) := fun v => if_pos hc
  dsimp only
  rw [hd, Outcome.ok_bind, hs, Outcome.ok_bind, hst, mul_one]
  exact metropolis _ _ _ _

theorem pottsFlip_cases {g : Shape} (ht : Torus g) (hot : ℚ → Nat → Bool) (d : Int → Int) (r : Nat × Nat × Nat) :
    ∃ m : Nat, m < g.nodes.toNat ∧ ∃ s : Int, pottsSum .serial g d (g.position m) (d m) (r.2.1 % 20 : Nat) = .ok s ∧
      pottsFlip .serial g hot d r = .ok (if (s : ℚ) ≤ 0 ∨ hot s r.2.2 = true then Function.update d (m : Int) (r.2.1 % 20 : Nat) else d) := by
  have hm := Nat.mod_lt r.1 (nodes_pos ht)
  obtain ⟨s, hs⟩ : ∃ s, pottsSum .serial g d (g.position (r.1 % g.nodes.toNat : Nat)) (d (r.1 % g.nodes.toNat : Nat)) (r.2.1 % 20 : Nat) = .ok s := by
    unfold pottsSum
    have h := fun {axes : List Nat} (hn : axes.Nodup) =>
      boxSum_eq ht hn d (change (d (r.1 % g.nodes.toNat : Nat)) (r.2.1 % 20 : Nat)) (n := (r.1 % g.nodes.toNat : Nat)) (by omega) (by omega) (-1)
    split_ifs
    · exact ⟨_, h (by decide)⟩
    · exact ⟨_, h (by decide)⟩
    · exact ⟨_, rfl⟩
  exact ⟨_, hm, _, hs, pottsFlip_eq ht hot d r rfl hs⟩

/-- **C43.** Any number of Potts flips runs without undefined behaviour and keeps every spin in 0..19. -/
theorem potts_states {g : Shape} (ht : Torus g) (hot : ℚ → Nat → Bool) (draws : List (Nat × Nat × Nat)) {d : Int → Int} (hd : ∀ n : Nat, n < g.nodes.toNat → 0 ≤ d n ∧ d n < 20) :
    ∃ d', pottsRun .serial g hot draws d = .ok d' ∧ (∀ n : Nat, n < g.nodes.toNat → 0 ≤ d' n ∧ d' n < 20) ∧ ∀ p : Int, (∀ n : Nat, n < g.nodes.toNat → p ≠ n) → d' p = d p := by
  induction draws generalizing d with
  | nil => exact ⟨d, rfl, hd, fun _ _ => rfl⟩
  | cons r draws ih =>
    obtain ⟨m, hm, s, -, e⟩ := pottsFlip_cases ht hot d r
    generalize hd1 : (if (s : ℚ) ≤ 0 ∨ hot s r.2.2 = true then Function.update d (m : Int) (r.2.1 % 20 : Nat) else d) = d1 at e
    have h1 : (∀ n : Nat, n < g.nodes.toNat → 0 ≤ d1 n ∧ d1 n < 20) ∧ ∀ p : Int, (∀ n : Nat, n < g.nodes.toNat → p ≠ n) → d1 p = d p := by
      rw [← hd1]
      split_ifs
      · refine ⟨fun n hn => ?_, fun p hp => Function.update_of_ne (hp m hm) _ _⟩
        by_cases h : (n : Int) = m
        · rw [h, Function.update_self]; omega
        · rw [Function.update_of_ne h]; exact hd n hn
      · exact ⟨hd, fun _ _ => rfl⟩
    obtain ⟨d', e', h2, h3⟩ := ih h1.1
    refine ⟨d', ?_, h2, fun p hp => by rw [h3 p hp, h1.2 p hp]⟩
    unfold pottsRun at e' ⊢
    rw [List.foldlM_cons, e]; exact e'

/-- **C52.** In three dimensions the Potts example accepts or rejects by the change of the number of unlike neighbour pairs, over all 26 neighbours. Full statement: the same
for grids of every dimension with neighbours along all axes, `List.range g.dim`; it fails for one and two dimensions (`potts_line`, `potts_plane`). -/
theorem potts_energy_partial {g : Shape} (ht : Torus g) (h3 : g.dim = 3) (hside : ∀ j < g.dim, 2 ≤ g.x1 j - g.x0 j) (d : Int → Int) {m : Nat} (hm : m < g.nodes.toNat) {spin2 : Int}
    (hne : spin2 ≠ d m) :
    ∃ s, pottsSum .serial g d (g.position m) (d m) spin2 = .ok s ∧
      interaction g (List.range g.dim) unlike (Function.update d (m : Int) spin2) - interaction g (List.range g.dim) unlike d = 2 * s := by
  have : pottsSum .serial g d (g.position m) (d m) spin2 = energySum .serial g d (List.range g.dim) (g.position m) (d m) spin2 := by
    unfold pottsSum
    rw [if_neg (by omega), if_neg (by omega), if_pos h3, h3]; rfl
  rw [this]
  exact energySum_spec ht (range_wide hside) d hm hne

/-- **C52.** Without thermal acceptance no run in three dimensions raises the number of unlike pairs. -/
theorem potts_descends_partial {g : Shape} (ht : Torus g) (h3 : g.dim = 3) (hside : ∀ j < g.dim, 2 ≤ g.x1 j - g.x0 j) (draws : List (Nat × Nat × Nat)) (d : Int → Int) :
    ∃ d', pottsRun .serial g (fun _ _ => false) draws d = .ok d' ∧ interaction g (List.range g.dim) unlike d' ≤ interaction g (List.range g.dim) unlike d := by
  induction draws generalizing d with
  | nil => exact ⟨d, rfl, le_refl _⟩
  | cons r draws ih =>
    obtain ⟨m, hm, s, e0, e⟩ := pottsFlip_cases ht (fun _ _ => false) d r
    generalize hd1 : (if (s : ℚ) ≤ 0 ∨ (fun (_ : ℚ) (_ : Nat) => false) s r.2.2 = true then Function.update d (m : Int) (r.2.1 % 20 : Nat) else d) = d1 at e
    obtain ⟨d', e4, h4⟩ := ih d1
    refine ⟨d', ?_, le_trans h4 ?_⟩
    · unfold pottsRun at e4 ⊢
      rw [List.foldlM_cons, e]; exact e4
    · rw [← hd1]
      by_cases hc : (s : ℚ) ≤ 0
      · rw [if_pos (Or.inl hc)]
        by_cases hne : ((r.2.1 % 20 : Nat) : Int) = d m
        · rw [hne, Function.update_eq_self]
        · obtain ⟨s', e1, h1⟩ := potts_energy_partial ht h3 hside d hm hne
          have : s = s' := by rw [e0] at e1; injection e1
          subst this
          have : s ≤ 0 := by exact_mod_cast hc
          linarith
      · rw [if_neg (not_or.2 ⟨hc, by simp⟩)]

/-- **C52.** In one dimension no neighbour is looked at: every proposed spin is accepted, whatever the state, the temperature and the numbers drawn. -/
theorem potts_line {g : Shape} (ht : Torus g) (h1 : g.dim = 1) (hot : ℚ → Nat → Bool) (d : Int → Int) (r : Nat × Nat × Nat) :
    pottsFlip .serial g hot d r = .ok (Function.update d ((r.1 % g.nodes.toNat : Nat) : Int) (r.2.1 % 20 : Nat)) := by
  have hs : pottsSum .serial g d (g.position (r.1 % g.nodes.toNat : Nat)) (d (r.1 % g.nodes.toNat : Nat)) (r.2.1 % 20 : Nat) = .ok (-1) := by
    unfold pottsSum
    rw [if_neg (by omega), if_neg (by omega), if_neg (by omega)]
  rw [pottsFlip_eq ht hot d r rfl hs, if_pos (Or.inl (by norm_num))]

/-- **C52.** In two dimensions only the two neighbours along the first axis count: the decision is by the change of the number of unlike pairs along that axis. -/
theorem potts_plane {g : Shape} (ht : Torus g) (h2 : g.dim = 2) (hside : 2 ≤ g.x1 0 - g.x0 0) (d : Int → Int) {m : Nat} (hm : m < g.nodes.toNat) {spin2 : Int}
    (hne : spin2 ≠ d m) :
    ∃ s, pottsSum .serial g d (g.position m) (d m) spin2 = .ok s ∧
      interaction g [0] unlike (Function.update d (m : Int) spin2) - interaction g [0] unlike d = 2 * s := by
  have : pottsSum .serial g d (g.position m) (d m) spin2 = energySum .serial g d [0] (g.position m) (d m) spin2 := if_pos h2
  rw [this]
  apply energySum_spec ht ⟨by simp, fun j hj => ?_⟩ d hm hne
  rw [List.mem_singleton] at hj
  subst hj
  exact ⟨by omega, hside⟩

/-- A square torus. -/
def square (n : Int) : Shape := { dim := 2, x0 := fun _ => 0, x1 := fun _ => n, b0 := fun _ => .periodic, b1 := fun _ => .periodic, ghosts := 0 }

theorem square_torus {n : Int} (hn : 0 < n) : Torus (square n) :=
  ⟨⟨(by decide : 0 < 2), fun _ _ => hn, (by decide : (0 : Int) ≤ 0)⟩, rfl, fun _ _ => rfl, fun _ _ => rfl⟩

/-- Nine sites, all 1 except the two neighbours of the middle site along the first axis, which are 7. -/
def sites (p : Int) : Int := if p = 1 ∨ p = 7 then 7 else 1

/-- **C52.** So the two-dimensional example raises the number of unlike pairs without thermal acceptance. -/
theorem potts_plane_raises :
    ∃ d', pottsFlip .serial (square 3) (fun _ _ => false) sites (4, 7, 0) = .ok d' ∧ interaction (square 3) [0, 1] unlike sites < interaction (square 3) [0, 1] unlike d' := by
  have hs : pottsSum .serial (square 3) sites ((square 3).position (4 : Nat)) (sites (4 : Nat)) (7 % 20 : Nat) = .ok (-2) := by decide +kernel
  refine ⟨_, pottsFlip_eq (square_torus (by decide)) (fun _ _ => false) sites (4, 7, 0) (m := 4) (by decide +kernel) hs, ?_⟩
  rw [if_pos (Or.inl (by norm_num))]
  decide +kernel

/-! ## Heisenberg -/

section
variable {α : Type} [Field α] [LinearOrder α] [IsStrictOrderedRing α]

/-- The scalar product. -/
def dot (a b : Dir α) : α := ∑ i, a i * b i

omit [LinearOrder α] [IsStrictOrderedRing α] in
theorem turn_eq (s1 s2 s : Dir α) : turn s1 s2 s = dot s1 s - dot s2 s := by
  unfold turn dot
  simp only [Fin.sum_univ_three]
  ring

omit [LinearOrder α] [IsStrictOrderedRing α] in
theorem dot_comm (a b : Dir α) : dot a b = dot b a := by unfold dot; simp only [mul_comm]

omit [LinearOrder α] [IsStrictOrderedRing α] in
/-- **C52.** What the Heisenberg example computes as energy change of a new direction is, for unit vectors, the change of the sum of scalar products of neighbours (the
ferromagnet has minus this sum as energy), plus the scalar product of the old and the new direction. -/
theorem heisenberg_energy {g : Shape} (ht : Torus g) (hside : ∀ j < g.dim, 2 ≤ g.x1 j - g.x0 j) (d : Int → Dir α) {m : Nat} (hm : m < g.nodes.toNat) (hd : dot (d m) (d m) = 1)
    {s2 : Dir α} (h2 : dot s2 s2 = 1) :
    ∃ s, turnSum .serial g d (List.range g.dim) (g.position m) (d m) s2 = .ok s ∧
      2 * (-1 * s) = interaction g (List.range g.dim) dot (Function.update d (m : Int) s2) - interaction g (List.range g.dim) dot d + 2 * dot (d m) s2 := by
  classical
  have hw := range_wide hside
  refine ⟨_, boxSum_eq ht hw.1 d (turn (d m) s2) (by omega) (by omega) (-1), ?_⟩
  rw [interaction_update ht hw.1 dot_comm d hm]
  have h1 : ∀ o ∈ offsets (List.range g.dim), (if nbr g o m = m then dot s2 s2 - dot (d m) (d m) else 2 * (dot s2 (d (nbr g o m)) - dot (d m) (d (nbr g o m)))) =
      if o = (fun _ => 0) then 0 else -2 * turn (d m) s2 (d (nbr g o m)) := by
    intro o ho
    have := nbr_self ht hw.1 hw.2 ho (n := (m : Int)) (by omega) (by omega)
    by_cases e : o = fun _ => 0
    · rw [if_pos (this.2 e), if_pos e, h2, hd, sub_self]
    · rw [if_neg (fun h => e (this.1 h)), if_neg e, turn_eq]; ring
  rw [List.map_congr_left h1, split_zero hw.1]
  have h0 : nbr g (fun _ => 0) m = m := (nbr_self ht hw.1 hw.2 ((mem_offsets hw.1).2 ⟨near_zero, fun _ _ => rfl⟩) (by omega) (by omega)).2 rfl
  rw [h0, List.sum_map_mul_left, turn_eq, hd, dot_comm s2]
  ring

omit [IsStrictOrderedRing α] in
theorem heisenbergFlip_eq {g : Shape} (ht : Torus g) (dir : Nat → Nat → Dir α) (hot : α → Nat → Bool) (d : Int → Dir α) (r : Nat × Nat × Nat × Nat) :
    ∃ m : Nat, m < g.nodes.toNat ∧ ∃ s, s = -1 + ((offsets (List.range g.dim)).map fun o => turn (d m) (dir r.2.1 r.2.2.1) (d (nbr g o m))).sum ∧
      turnSum .serial g d (List.range g.dim) (g.position m) (d m) (dir r.2.1 r.2.2.1) = .ok s ∧
      heisenbergFlip .serial g dir hot d r = .ok (if -1 * s ≤ 0 ∨ hot (-1 * s) r.2.2.2 = true then Function.update d (m : Int) (dir r.2.1 r.2.2.1) else d) := by
  have hpos := nodes_pos ht
  have hm := Nat.mod_lt r.1 hpos
  have hs := boxSum_eq ht (axes := List.range g.dim) List.nodup_range d (turn (d (r.1 % g.nodes.toNat : Nat)) (dir r.2.1 r.2.2.1)) (n := (r.1 % g.nodes.toNat : Nat)) (by omega) (by omega) (-1)
  refine ⟨_, hm, _, rfl, hs, ?_⟩
  have hc := cell_ok ht hm
  unfold heisenbergFlip
  rw [if_neg (by omega)]
  have hd : deref g d (g.atNode .serial (r.1 % g.nodes.toNat : Nat)) = .ok (d (r.1 % g.nodes.toNat : Nat)) := if_pos hc
  have hst : ∀ v, store g d (g.atNode .serial (r.1 % g.nodes.toNat : Nat)) v = .ok (Function.update d ((r.1 % g.nodes.toNat : Nat) : Int) v) := fun v => if_pos hc
  dsimp only
  unfold turnSum
  rw [hd, Outcome.ok_bind, hs, Outcome.ok_bind, hst]
  exact metropolis _ _ _ _

omit [IsStrictOrderedRing α] in
/-- **C43.** Unit vectors stay unit vectors, if the drawn directions are. -/
theorem heisenberg_states {g : Shape} (ht : Torus g) (dir : Nat → Nat → Dir α) (hdir : ∀ a b, dot (dir a b) (dir a b) = 1) (hot : α → Nat → Bool) (draws : List (Nat × Nat × Nat × Nat))
    {d : Int → Dir α} (hd : ∀ n : Nat, n < g.nodes.toNat → dot (d n) (d n) = 1) :
    ∃ d', draws.foldlM (heisenbergFlip .serial g dir hot) d = .ok d' ∧ ∀ n : Nat, n < g.nodes.toNat → dot (d' n) (d' n) = 1 := by
  induction draws generalizing d with
  | nil => exact ⟨d, rfl, hd⟩
  | cons r draws ih =>
    obtain ⟨m, hm, s, -, -, e⟩ := heisenbergFlip_eq ht dir hot d r
    generalize hd1 : (if -1 * s ≤ 0 ∨ hot (-1 * s) r.2.2.2 = true then Function.update d (m : Int) (dir r.2.1 r.2.2.1) else d) = d1 at e
    have h1 : ∀ n : Nat, n < g.nodes.toNat → dot (d1 n) (d1 n) = 1 := by
      rw [← hd1]
      split_ifs
      · intro n hn
        by_cases h : (n : Int) = m
        · rw [h, Function.update_self]; exact hdir _ _
        · rw [Function.update_of_ne h]; exact hd n hn
      · exact hd
    obtain ⟨d', e', h2⟩ := ih h1
    exact ⟨d', by rw [List.foldlM_cons, e]; exact e', h2⟩

/-- **C52.** With all spins aligned, the ground state of the ferromagnet, every proposed direction at an angle with cosine at most 2/3 is accepted, whatever is drawn. -/
theorem heisenberg_leaves_ground_state {g : Shape} (ht : Torus g) (dir : Nat → Nat → Dir α) (hot : α → Nat → Bool) {d : Int → Dir α} {u : Dir α} (hu : dot u u = 1)
    (hd : ∀ n : Nat, n < g.nodes.toNat → d n = u) (r : Nat × Nat × Nat × Nat) (hr : 3 * dot u (dir r.2.1 r.2.2.1) ≤ 2) :
    ∃ m : Nat, m < g.nodes.toNat ∧ heisenbergFlip .serial g dir hot d r = .ok (Function.update d (m : Int) (dir r.2.1 r.2.2.1)) := by
  obtain ⟨m, hm, s, hs, -, e⟩ := heisenbergFlip_eq ht dir hot d r
  refine ⟨m, hm, ?_⟩
  have key : s = -1 + ((offsets (List.range g.dim)).map fun _ => 1 - dot u (dir r.2.1 r.2.2.1)).sum := by
    rw [hs]
    congr 2
    apply List.map_congr_left
    intro o ho
    obtain ⟨a, b, -⟩ := nbr_spec ht ((mem_offsets List.nodup_range).1 ho).1 (n := (m : Int)) (by omega) (by omega)
    have := hd (nbr g o m).toNat (by omega)
    rw [Int.toNat_of_nonneg a] at this
    rw [hd m hm, this, turn_eq, hu, dot_comm u]
  simp only [List.map_const', List.sum_replicate, nsmul_eq_mul] at key
  have hlen : (3 : α) ≤ ((offsets (List.range g.dim)).length : α) := by exact_mod_cast offsets_length ht
  have hnn : 0 ≤ 1 - dot u (dir r.2.1 r.2.2.1) := by linarith
  have := mul_le_mul_of_nonneg_right hlen hnn
  rw [e, if_pos (Or.inl (by rw [key]; linarith))]

end

/-! ## Ranks of a parallel run -/

/-- The whole neighbourhood of every node lies in the local array. -/
def BoxReach (bd : Build) (g : Shape) : Prop := ∀ n : Nat, n < g.nodes.toNat → ∀ o, Near o → Touches bd g (shift (g.position n) o)

/-- One layer of ghosts suffices in a parallel build. -/
theorem boxReach_mpi {g : Shape} (hg : g.Wf) (hgh : 1 ≤ g.ghosts) (hm : ∀ j, j < g.dim → g.b0 j = .mirror ∨ g.b1 j = .mirror → g.ghosts < g.x1 j - g.x0 j) : BoxReach .mpi g := by
  intro n hn o ho
  apply Shape.mpi_access_in_bounds hg _ hm
  intro j hj
  have := Shape.position_isNode hg (i := (n : Int)) (by omega) (by omega) j hj
  have := ho j
  unfold shift
  omega

theorem energySum_total {bd : Build} {g : Shape} (hr : BoxReach bd g) (d : Int → Int) {axes : List Nat} (hn : axes.Nodup) {m : Nat} (hm : m < g.nodes.toNat) (a b : Int) :
    ∃ s, energySum bd g d axes (g.position m) a b = .ok s := by
  unfold energySum
  rw [boxFold_eq _ hn]
  have h : ∀ o ∈ offsets axes, gridAt bd g d (shift (g.position m) o) = .ok (view bd g d (shift (g.position m) o)) :=
    fun o ho => gridAt_ok (hr m hm o ((mem_offsets hn).1 ho).1) d
  have := fold_sum (offsets axes) (fun o => (gridAt bd g d (shift (g.position m) o)).bind fun s => Outcome.ok (change a b s))
    (fun o => change a b (view bd g d (shift (g.position m) o))) (fun o ho => by rw [h o ho]; rfl) (-1)
  refine ⟨_, Eq.trans ?_ this⟩
  congr 1
  funext c o
  by_cases hh : Touches bd g (shift (g.position m) o)
  · rw [gridAt_ok hh]; rfl
  · rw [gridAt_ub hh]; rfl

/-- **C43.** A flip on any rank: if all cells, ghosts included, are up or down, so are they afterwards. -/
theorem ising_rank_states {bd : Build} {g : Shape} (hg : g.Wf) (hser : bd = .serial → g.ghosts = 0) (hr : BoxReach bd g) (hot : ℚ → Nat → Bool) {d : Int → Int}
    (hd : ∀ p, 0 ≤ p → p < g.cells → d p = 1 ∨ d p = -1) (r : Nat × Nat) :
    ∃ d', isingFlip bd g hot d r = .ok d' ∧ ∀ p, 0 ≤ p → p < g.cells → d' p = 1 ∨ d' p = -1 := by
  have hpos : 0 < g.nodes.toNat := by
    rw [Shape.nodes_eq hg]
    have := Finset.prod_pos fun j (hj : j ∈ range g.dim) => Shape.xx_radix_pos hg j (Finset.mem_range.1 hj)
    omega
  have hm := Nat.mod_lt r.1 hpos
  have hc : 0 ≤ g.atNode bd (r.1 % g.nodes.toNat : Nat) ∧ g.atNode bd (r.1 % g.nodes.toNat : Nat) < g.cells := by
    rw [Shape.atNode_eq_atVec hg bd hser (by omega) (by omega)]
    have := hr _ hm (fun _ => 0) near_zero
    have e : shift (g.position (r.1 % g.nodes.toNat : Nat)) (fun _ => 0) = g.position (r.1 % g.nodes.toNat : Nat) := by funext j; simp [shift]
    rwa [e] at this
  unfold isingFlip
  rw [if_neg (by omega)]
  have h1 : deref g d (g.atNode bd (r.1 % g.nodes.toNat : Nat)) = .ok (d (g.atNode bd (r.1 % g.nodes.toNat : Nat))) := if_pos hc
  have hst : ∀ v, store g d (g.atNode bd (r.1 % g.nodes.toNat : Nat)) v = .ok (Function.update d (g.atNode bd (r.1 % g.nodes.toNat : Nat)) v) := fun v => if_pos hc
  obtain ⟨s, hs⟩ := energySum_total hr d (axes := List.range g.dim) List.nodup_range hm (d (g.atNode bd (r.1 % g.nodes.toNat : Nat))) (-d (g.atNode bd (r.1 % g.nodes.toNat : Nat)))
  dsimp only
  rw [h1, Outcome.ok_bind, hs, Outcome.ok_bind, hst, metropolis]
  refine ⟨_, rfl, fun p hp0 hp1 => ?_⟩
  split_ifs
  · by_cases e : p = g.atNode bd (r.1 % g.nodes.toNat : Nat)
    · rw [e, Function.update_self]; have := hd _ hc.1 hc.2; omega
    · rw [Function.update_of_ne e]; exact hd p hp0 hp1
  · exact hd p hp0 hp1

/-! ## Hypotheses are met -/

example : BoxReach .mpi { dim := 2, x0 := fun _ => 0, x1 := fun _ => 4, b0 := fun _ => .periodic, b1 := fun _ => .parallel, ghosts := 1 } :=
  boxReach_mpi ⟨(by decide : 0 < 2), fun _ _ => (by decide : (0 : Int) < 4), (by decide : (0 : Int) ≤ 1)⟩ (by decide) (fun _ _ h => by rcases h with h | h <;> simp at h)

example : Torus (square 8) ∧ (∀ j < (square 8).dim, 2 ≤ (square 8).x1 j - (square 8).x0 j) ∧ (square 8).nodes.toNat = 64 :=
  ⟨square_torus (by decide), fun _ _ => (by decide : (2 : Int) ≤ 8 - 0), by decide +kernel⟩

example : Torus { dim := 3, x0 := fun _ => 0, x1 := fun _ => 4, b0 := fun _ => .periodic, b1 := fun _ => .periodic, ghosts := 0 } :=
  ⟨⟨(by decide : 0 < 3), fun _ _ => (by decide : (0 : Int) < 4), (by decide : (0 : Int) ≤ 0)⟩, rfl, fun _ _ => rfl, fun _ _ => rfl⟩

example : dot (![3 / 5, 0, 4 / 5] : Dir ℚ) ![3 / 5, 0, 4 / 5] = 1 ∧ 3 * dot (![3 / 5, 0, 4 / 5] : Dir ℚ) ![0, 1, 0] ≤ 2 := by
  constructor <;> decide +kernel

end MMSP.Spin
