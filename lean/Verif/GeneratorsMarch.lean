import Verif.Generators
import Verif.TessellateNever
import Verif.TessellateProps
import Mathlib.Algebra.Order.BigOperators.Group.Finset
/-!
# Property C77: fast marching with a copied loop variable

The version of `algorithms/generators.cpp` ends, and if it does not run into undefined behaviour every node gets a seed that is nearest in the sum of the absolute
differences of the coordinates.
-/

namespace MMSP.Generators

open MMSP.Stencil MMSP.PriorityQueue
open MMSP.Tessellate (Seed State Step Weak Sited visit checked initial whileLoop andThen bind_ok visit_step while_inv while_false while_true weak_push weak_update weak_pop
  weak_up andThen_some)
open MMSP.Conserve (Serial position_rawOffset)

/-! ## Specification -/

/-- Sum of the absolute differences of the coordinates. -/
def taxi (dim : Nat) (x y : Nat → Int) : Int := ∑ d ∈ Finset.range dim, |x d - y d|

theorem taxi_comm (dim : Nat) (x y : Nat → Int) : taxi dim x y = taxi dim y x := Finset.sum_congr rfl fun _ _ => abs_sub_comm ..

theorem taxi_triangle (dim : Nat) (x y z : Nat → Int) : taxi dim x z ≤ taxi dim x y + taxi dim y z := by
  unfold taxi
  rw [← Finset.sum_add_distrib]
  exact Finset.sum_le_sum fun d _ => abs_sub_le ..

theorem taxi_nonneg (dim : Nat) (x y : Nat → Int) : 0 ≤ taxi dim x y := Finset.sum_nonneg fun _ _ => abs_nonneg _

theorem taxi_congr {dim : Nat} {x x' y y' : Nat → Int} (hx : ∀ d, d < dim → x d = x' d) (hy : ∀ d, d < dim → y d = y' d) : taxi dim x y = taxi dim x' y' :=
  Finset.sum_congr rfl fun d hd => by rw [hx d (Finset.mem_range.1 hd), hy d (Finset.mem_range.1 hd)]

theorem abs_le_sq (a : Int) : |a| ≤ a * a := by
  rw [← abs_mul_abs_self a]
  rcases eq_or_lt_of_le (abs_nonneg a) with h | h
  · rw [← h]; rfl
  · have h1 : 1 ≤ |a| := h
    nlinarith

theorem taxi_le_sq (dim : Nat) (x y : Nat → Int) : taxi dim x y ≤ ∑ d ∈ Finset.range dim, (x d - y d) * (x d - y d) :=
  Finset.sum_le_sum fun _ _ => abs_le_sq _

theorem taxi_zero {dim : Nat} {x y : Nat → Int} (h : taxi dim x y = 0) (d : Nat) (hd : d < dim) : x d = y d := by
  have := (Finset.sum_eq_zero_iff_of_nonneg fun i _ => abs_nonneg (x i - y i)).1 h d (Finset.mem_range.2 hd)
  have := abs_eq_zero.1 this
  omega

/-- A neighbour one step closer to `y`. -/
theorem taxi_closer {dim : Nat} {x y : Nat → Int} (h : 0 < taxi dim x y) :
    ∃ d s, d < dim ∧ (s = 1 ∨ s = -1) ∧ taxi dim (bump x d s) y = taxi dim x y - 1 ∧ (x d < bump x d s d ∧ bump x d s d ≤ y d ∨ bump x d s d < x d ∧ y d ≤ bump x d s d) := by
  have hex : ∃ d, d < dim ∧ x d ≠ y d := by
    by_contra hc
    push Not at hc
    have : taxi dim x y = 0 := Finset.sum_eq_zero fun d hd => by rw [hc d (Finset.mem_range.1 hd), sub_self, abs_zero]
    omega
  obtain ⟨d, hd, hne⟩ := hex
  have hb : ∀ s, bump x d s d = x d + s := fun s => by simp [bump]
  have hsum : ∀ s, |x d + s - y d| = |x d - y d| - 1 → taxi dim (bump x d s) y = taxi dim x y - 1 := by
    intro s hs
    unfold taxi
    rw [← Finset.add_sum_erase _ _ (Finset.mem_range.2 hd), ← Finset.add_sum_erase _ (fun d => |x d - y d|) (Finset.mem_range.2 hd)]
    rw [hb, hs, Finset.sum_congr rfl fun j hj => by
      show |bump x d s j - y j| = |x j - y j|
      have : j ≠ d := (Finset.mem_erase.1 hj).1
      simp [bump, this]]
    ring
  rcases lt_or_gt_of_ne hne with h1 | h1
  · refine ⟨d, 1, hd, .inl rfl, hsum 1 ?_, .inl ?_⟩
    · rw [abs_of_nonpos (by omega), abs_of_nonpos (by omega)]; ring
    · rw [hb]; omega
  · refine ⟨d, -1, hd, .inr rfl, hsum (-1) ?_, .inr ?_⟩
    · rw [abs_of_nonneg (by omega), abs_of_nonneg (by omega)]; ring
    · rw [hb]; omega

/-! ## Outcomes -/

/-- The program does not stop with an assertion or an exit code. -/
def Calm {α : Type} (o : Outcome α) : Prop := o = .ub ∨ ∃ a, o = .ok a

theorem Calm.bind {α β : Type} {o : Outcome α} {f : α → Outcome β} (h : Calm o) (hf : ∀ a, o = .ok a → Calm (f a)) : Calm (o.bind f) := by
  rcases h with rfl | ⟨a, rfl⟩
  · exact .inl rfl
  · exact hf a rfl

theorem foldlM_inv {α β : Type} {f : β → α → Outcome β} {P : β → Prop} : ∀ (l : List α) {b c : β}, P b → (∀ a ∈ l, ∀ b b', P b → f b a = .ok b' → P b') →
    l.foldlM f b = .ok c → P c := by
  intro l
  induction l with
  | nil => intro b c hb _ h; cases h; exact hb
  | cons a l ih =>
    intro b c hb hs h
    rw [List.foldlM_cons] at h
    obtain ⟨b', h1, h2⟩ := bind_ok h
    exact ih (hs a List.mem_cons_self b b' hb h1) (fun x hx => hs x (List.mem_cons_of_mem _ hx)) h2

theorem foldlM_calm {α β : Type} {f : β → α → Outcome β} {P : β → Prop} : ∀ (l : List α) {b : β}, P b → (∀ a ∈ l, ∀ b, P b → Calm (f b a)) →
    (∀ a ∈ l, ∀ b b', P b → f b a = .ok b' → P b') → Calm (l.foldlM f b) := by
  intro l
  induction l with
  | nil => intro b _ _ _; exact .inr ⟨b, rfl⟩
  | cons a l ih =>
    intro b hb hc hs
    rw [List.foldlM_cons]
    exact Calm.bind (hc a List.mem_cons_self b hb) fun b' h1 =>
      ih (hs a List.mem_cons_self b b' hb h1) (fun x hx => hc x (List.mem_cons_of_mem _ hx)) (fun x hx => hs x (List.mem_cons_of_mem _ hx))

/-! ## Sizes of the queue -/

section
variable {E K : Type} [DecidableEq E] [LinearOrder K]

theorem size_up (key : E → K) : ∀ (i : Nat) (q q' : PQ E), q.percolateUp key i = .ok q' → q'.size = q.size := by
  intro i
  induction i using Nat.strong_induction_on with
  | _ i ih =>
    intro q q' h
    rw [PQ.percolateUp] at h
    split_ifs at h with h1 h2 h3
    · cases h; rfl
    · have := ih (parent i) (parent_lt (by omega)) (q.swap i (parent i)) q' h
      exact this
    · cases h; rfl

theorem size_down (key : E → K) : ∀ (n i : Nat) (q : PQ E), q.size - i = n → (q.percolateDown key i).size = q.size := by
  intro n
  induction n using Nat.strong_induction_on with
  | _ n ih =>
    intro i q hn
    rw [PQ.percolateDown]
    split_ifs with h1 h2
    · have hc : i < q.child key i ∧ q.child key i < q.size := by unfold PQ.child; split_ifs <;> omega
      exact ih (q.size - q.child key i) (by omega) (q.child key i) (q.swap (q.child key i) i) rfl
    · rfl
    · rfl

theorem calm_up (key : E → K) : ∀ (i : Nat) (q : PQ E), Calm (q.percolateUp key i) := by
  intro i
  induction i using Nat.strong_induction_on with
  | _ i ih =>
    intro q
    rw [PQ.percolateUp]
    split_ifs with h1 h2 h3
    · exact .inr ⟨_, rfl⟩
    · exact .inl rfl
    · exact ih (parent i) (parent_lt (by omega)) _
    · exact .inr ⟨_, rfl⟩

theorem push_size {key : E → K} {q q' : PQ E} {e : E} (h : q.push key e = .ok q') : q'.size = q.size + 1 := by
  unfold PQ.push at h
  split_ifs at h
  exact size_up key _ _ _ h

theorem update_size {key : E → K} {q q' : PQ E} {e : E} (h : q.updatePosition key e = .ok q') : q'.size = q.size := by
  unfold PQ.updatePosition at h
  split at h
  · cases h
  · obtain ⟨q1, h1, h⟩ := bind_ok h
    split at h
    · cases h
    · cases h
      rw [size_down key _ _ _ rfl, size_up key _ _ _ h1]

theorem pop_size {key : E → K} {q q' : PQ E} (h : q.pop key = .ok q') : q'.size + 1 = q.size := by
  unfold PQ.pop at h
  split_ifs at h with h1 h2
  cases h
  rw [size_down key _ _ _ rfl]
  show q.size - 1 + 1 = q.size
  omega

theorem push_calm {key : E → K} {q : PQ E} {e : E} (h : q.inHeap e = false) : Calm (q.push key e) := by
  unfold PQ.push
  have h' : ¬ (q.back e).isSome = true := by unfold PQ.inHeap at h; simp [h]
  rw [if_neg h']
  exact calm_up ..

theorem update_calm {key : E → K} {q : PQ E} (hw : Weak q) {e : E} (h : q.inHeap e = true) : Calm (q.updatePosition key e) := by
  unfold PQ.updatePosition
  split
  · rename_i hb; unfold PQ.inHeap at h; rw [hb] at h; cases h
  · refine Calm.bind (calm_up ..) fun q1 h1 => ?_
    obtain ⟨h2, h3⟩ := weak_up key _ _ _ hw h1
    split
    · exact .inl rfl
    · exact .inr ⟨_, rfl⟩

theorem pop_ok {key : E → K} {q : PQ E} (hw : Weak q) (h : q.size ≠ 0) : ∃ q', q.pop key = .ok q' := by
  unfold PQ.pop
  rw [if_neg h, if_neg]
  · exact ⟨_, rfl⟩
  · intro hn
    have := (hw.mem (q.heap 0)).1 ⟨0, by omega, rfl⟩
    rw [hn] at this; cases this
end

/-! ## Offsets -/

theorem mem_offsets : ∀ {k : Nat} {o : List Int}, o ∈ offsets k ↔ o.length = k ∧ ∀ a ∈ o, a = -1 ∨ a = 0 ∨ a = 1 := by
  intro k
  induction k with
  | zero => intro o; simp only [offsets, List.mem_singleton]; constructor
            · rintro rfl; simp
            · rintro ⟨h, -⟩; exact List.length_eq_zero_iff.1 h
  | succ k ih =>
    intro o
    simp only [offsets, List.mem_flatMap, List.mem_map, ih]
    constructor
    · rintro ⟨a, ha, o', ⟨h1, h2⟩, rfl⟩
      refine ⟨by simp [h1], fun b hb => ?_⟩
      rcases List.mem_cons.1 hb with rfl | hb
      · simpa using ha
      · exact h2 b hb
    · rintro ⟨h1, h2⟩
      cases o with
      | nil => simp at h1
      | cons a o' =>
        exact ⟨a, by simpa using h2 a List.mem_cons_self, o', ⟨by simpa using h1, fun b hb => h2 b (List.mem_cons_of_mem _ hb)⟩, rfl⟩

/-- The offset of a step along one axis. -/
theorem step_mem {dim : Nat} (d : Nat) {s : Int} (hs : s = 1 ∨ s = -1) (x : Nat → Int) :
    ∃ o ∈ offsets dim, ∀ j, j < dim → shift x o j = bump x d s j := by
  refine ⟨(List.range dim).map fun j => if j = d then s else 0, mem_offsets.2 ⟨by simp, ?_⟩, fun j hj => ?_⟩
  · intro a ha
    obtain ⟨j, -, rfl⟩ := List.mem_map.1 ha
    split_ifs
    · rcases hs with h | h
      · exact .inr (.inr h)
      · exact .inl h
    · exact .inr (.inl rfl)
  · unfold shift bump
    rw [List.getD_eq_getElem?_getD, List.getElem?_map, List.getElem?_range hj]
    simp only [Option.map_some, Option.getD_some]
    by_cases hc : j = d
    · simp [hc]
    · simp [hc]

/-! ## What every voxel knows -/

/-- `std::numeric_limits<int>::max()` -/
def far : Int := 2 ^ 31 - 1

/-- The voxel at `pos` belongs to seed `id`, which is not farther than `v`. -/
def Reached (g : Shape) (seeds : List Seed) (pos : Nat → Int) (v id : Int) : Prop :=
  ∃ (i : Nat) (s : Seed), seeds[i]? = some s ∧ id = i ∧ taxi g.dim pos s.at ≤ v

structure Sound (g : Shape) (seeds : List Seed) (st : State) : Prop where
  weak : Weak st.queue
  sited : Sited g st
  range : ∀ e, Holds st.queue e → 0 ≤ e ∧ e < g.nodes
  value : ∀ e, 0 ≤ e → e < g.nodes → (st.data e).value = far ∨ (st.data e).value < far ∧ Reached g seeds (g.position e) (st.data e).value (st.data e).id

theorem Reached.nonneg {g : Shape} {seeds : List Seed} {pos : Nat → Int} {v id : Int} (h : Reached g seeds pos v id) : 0 ≤ v := by
  obtain ⟨_, _, -, -, h⟩ := h
  exact (taxi_nonneg ..).trans h

theorem Sound.nonneg {g : Shape} {seeds : List Seed} {st : State} (h : Sound g seeds st) {e : Int} (h0 : 0 ≤ e) (h1 : e < g.nodes) : 0 ≤ (st.data e).value := by
  rcases h.value e h0 h1 with h | h
  · rw [h]; decide
  · exact h.2.nonneg

theorem Sound.le_far {g : Shape} {seeds : List Seed} {st : State} (h : Sound g seeds st) {e : Int} (h0 : 0 ≤ e) (h1 : e < g.nodes) : (st.data e).value ≤ far := by
  rcases h.value e h0 h1 with h | h
  · rw [h]
  · exact h.1.le

/-- What is left to do at most. -/
def work (g : Shape) (st : State) : Nat := 2 * ∑ n ∈ Finset.range g.nodes.toNat, ((st.data n).value).toNat + st.queue.size

theorem work_lower {g : Shape} {data data' : Int → Tessellate.Voxel} {e : Int} (h0 : 0 ≤ e) (h1 : e < g.nodes) (hs : ∀ x, x ≠ e → data' x = data x)
    (hn : 0 ≤ (data' e).value) (hl : (data' e).value < (data e).value) :
    ∑ n ∈ Finset.range g.nodes.toNat, ((data' (n : Nat)).value).toNat + 1 ≤ ∑ n ∈ Finset.range g.nodes.toNat, ((data (n : Nat)).value).toNat := by
  have hm : e.toNat ∈ Finset.range g.nodes.toNat := Finset.mem_range.2 (by omega)
  have he : ((e.toNat : Nat) : Int) = e := by omega
  rw [← Finset.add_sum_erase _ _ hm, ← Finset.add_sum_erase _ (fun n : Nat => ((data (n : Nat)).value).toNat) hm, he]
  have : ∑ n ∈ (Finset.range g.nodes.toNat).erase e.toNat, ((data' (n : Nat)).value).toNat = ∑ n ∈ (Finset.range g.nodes.toNat).erase e.toNat, ((data (n : Nat)).value).toNat :=
    Finset.sum_congr rfl fun n hn => by
      rw [hs]
      have := (Finset.mem_erase.1 hn).1
      omega
  omega

section
variable {g : Shape} {seeds : List Seed} {pos : Nat → Int} {core id : Int}

theorem at_node (hS : Serial g) {p : Nat → Int} (hp : g.IsNode p) :
    0 ≤ g.atVec .serial p ∧ g.atVec .serial p < g.nodes ∧ ∀ j, j < g.dim → g.position (g.atVec .serial p) j = p j := by
  rw [Shape.atVec_eq_raw .serial fun j hj => checkBoundary_inside _ _ _ _ _ _ (hp j hj)]
  exact position_rawOffset hS hp

theorem deref_node {α : Type} (hS : Serial g) (data : Int → α) {e : Int} (h0 : 0 ≤ e) (h1 : e < g.nodes) : deref g data e = .ok (data e) := by
  unfold deref
  rw [if_pos ⟨h0, by rw [Conserve.cells_eq_nodes hS]; exact h1⟩]

theorem visit_sound (hS : Serial g) {p : Nat → Int} (hp : g.IsNode p) {s t : State} (hs : Sound g seeds s)
    (hc : core = far ∨ core < far ∧ Reached g seeds pos core id) (h : visit g pos core id p s = .ok t) : Sound g seeds t ∧ work g t ≤ work g s := by
  have hst := (visit_step hs.weak h).1
  obtain ⟨h0, h1, hpos⟩ := at_node hS hp
  unfold visit Tessellate.radiussq at h
  obtain ⟨r, hr, h⟩ := bind_ok h
  dsimp only at hr
  split_ifs at hr with hr'
  cases hr
  split_ifs at h with h2
  dsimp only at h
  rw [deref_node hS _ h0 h1, Outcome.ok_bind] at h
  generalize g.atVec .serial p = e at *
  set r := ∑ d ∈ Finset.range g.dim, (p d - pos d) * (p d - pos d) with hrdef
  have hr0 : 0 ≤ r := Finset.sum_nonneg fun d _ => mul_self_nonneg _
  by_cases h3 : (s.data e).value > core + r
  · rw [if_pos h3] at h
    obtain ⟨q, hq, h⟩ := bind_ok h
    cases h
    have hlt : core < far := by have := hs.le_far h0 h1; omega
    have hre : Reached g seeds pos core id := by
      rcases hc with h | h
      · omega
      · exact h.2
    have hsz : q.size ≤ s.queue.size + 1 := by
      split_ifs at hq with h4
      · rw [update_size hq]; omega
      · rw [push_size hq]
    have hmem : ∀ x, Holds q x → x = e ∨ Holds s.queue x := by
      intro x hx
      split_ifs at hq with h4
      · exact .inr (((weak_update hs.weak hq).2 x).1 hx)
      · exact ((weak_push hs.weak hq).2 x).1 hx
    have hcore := hre.nonneg
    refine ⟨⟨hst.weak, fun x a b => (hst.x x).trans (hs.sited x a b), fun x hx => ?_, fun x a b => ?_⟩, ?_⟩
    · rcases hmem x hx with rfl | hx
      · exact ⟨h0, h1⟩
      · exact hs.range x hx
    · show (Function.update s.data e _ x).value = far ∨ (Function.update s.data e _ x).value < far ∧ Reached g seeds (g.position x) (Function.update s.data e _ x).value (Function.update s.data e _ x).id
      by_cases hx : x = e
      · subst hx
        rw [Function.update_self]
        refine .inr ⟨?_, ?_⟩
        · show core + r < far
          have := hs.le_far h0 h1; omega
        · obtain ⟨i, sd, e1, e2, e3⟩ := hre
          refine ⟨i, sd, e1, e2, ?_⟩
          show taxi g.dim (g.position x) sd.at ≤ core + r
          have t1 := taxi_triangle g.dim (g.position x) pos sd.at
          have t2 := taxi_le_sq g.dim p pos
          rw [taxi_congr hpos fun _ _ => rfl, taxi_congr (y := pos) hpos fun _ _ => rfl] at t1
          rw [taxi_congr hpos fun _ _ => rfl]
          omega
      · rw [Function.update_of_ne hx]
        exact hs.value x a b
    · have := work_lower (g := g) (data := s.data) (data' := Function.update s.data e { s.data e with value := core + r, id := id }) h0 h1
        (fun x hx => Function.update_of_ne hx ..) (by rw [Function.update_self]; show 0 ≤ core + r; omega) (by rw [Function.update_self]; exact h3)
      have hw : 2 * ∑ n ∈ Finset.range g.nodes.toNat, ((Function.update s.data e { s.data e with value := core + r, id := id } (n : Nat)).value).toNat + q.size ≤
          2 * ∑ n ∈ Finset.range g.nodes.toNat, ((s.data (n : Nat)).value).toNat + s.queue.size := by omega
      exact hw
  · rw [if_neg h3] at h
    cases h
    exact ⟨hs, le_rfl⟩

theorem visit_calm (hS : Serial g) {p : Nat → Int} (hp : g.IsNode p) {s : State} (hs : Sound g seeds s) : Calm (visit g pos core id p s) := by
  obtain ⟨h0, h1, -⟩ := at_node hS hp
  unfold visit Tessellate.radiussq
  dsimp only
  by_cases h1' : ∑ d ∈ Finset.range g.dim, (p d - pos d) * (p d - pos d) < 2 ^ 31
  · rw [if_pos h1', Outcome.ok_bind]
    by_cases h2 : core + ∑ d ∈ Finset.range g.dim, (p d - pos d) * (p d - pos d) ≥ 2 ^ 31
    · exact .inl (by rw [if_pos h2])
    · rw [if_neg h2, deref_node hS _ h0 h1, Outcome.ok_bind]
      split_ifs with h3 h4
      · exact Calm.bind (update_calm hs.weak h4) fun q _ => .inr ⟨_, rfl⟩
      · exact Calm.bind (push_calm (by simpa using h4)) fun q _ => .inr ⟨_, rfl⟩
      · exact .inr ⟨_, rfl⟩
  · exact .inl (by rw [if_neg h1']; rfl)

/-- The two ways of the body. -/
theorem body_cases (g : Shape) (pos : Nat → Int) (core id : Int) (st : State) (o : List Int) :
    body g pos core id st o = .ok st ∨ g.IsNode (checked g (shift pos o)) ∧ body g pos core id st o = visit g pos core id (checked g (shift pos o)) st := by
  unfold body
  by_cases h1 : ((List.range g.dim).all fun d => shift pos o d == pos d) = true
  · exact .inl (by rw [if_pos h1])
  · rw [if_neg h1]
    dsimp only
    by_cases h2 : ((List.range g.dim).any fun d => decide (checked g (shift pos o) d < g.x0 d) || decide (checked g (shift pos o) d ≥ g.x1 d)) = true
    · exact .inl (by rw [if_pos h2])
    · rw [if_neg h2]
      refine .inr ⟨fun d hd => ?_, rfl⟩
      by_contra hc
      exact h2 (List.any_eq_true.2 ⟨d, List.mem_range.2 hd, by rw [Bool.or_eq_true, decide_eq_true_iff, decide_eq_true_iff]; omega⟩)

/-- Everything one body keeps. -/
theorem body_sound (hS : Serial g) {s t : State} {o : List Int} (hs : Sound g seeds s) (hc : core = far ∨ core < far ∧ Reached g seeds pos core id)
    (h : body g pos core id s o = .ok t) : Sound g seeds t ∧ work g t ≤ work g s ∧ Step s t := by
  rcases body_cases g pos core id s o with e | ⟨hp, e⟩
  · rw [e] at h; cases h; exact ⟨hs, le_rfl, Step.refl hs.weak⟩
  · rw [e] at h
    obtain ⟨a, b⟩ := visit_sound hS hp hs hc h
    exact ⟨a, b, (visit_step hs.weak h).1⟩

theorem body_calm (hS : Serial g) {s : State} (o : List Int) (hs : Sound g seeds s) : Calm (body g pos core id s o) := by
  rcases body_cases g pos core id s o with e | ⟨hp, e⟩
  · exact .inr ⟨s, e⟩
  · rw [e]; exact visit_calm hS hp hs

theorem core_of (hS : Serial g) {s : State} (hs : Sound g seeds s) {e : Int} (h0 : 0 ≤ e) (h1 : e < g.nodes) :
    propagate g e s = (offsets g.dim).foldlM (body g (g.position e) (s.data e).value (s.data e).id) s := by
  unfold propagate
  rw [deref_node hS _ h0 h1, Outcome.ok_bind, hs.sited e h0 h1, ← Shape.atNode_eq_atVec hS.wf .serial (fun _ => hS.ghosts) h0 h1]
  show (deref g s.data e).bind _ = _
  rw [deref_node hS _ h0 h1, Outcome.ok_bind]

theorem propagate_sound (hS : Serial g) {s t : State} (hs : Sound g seeds s) {e : Int} (h0 : 0 ≤ e) (h1 : e < g.nodes) (h : propagate g e s = .ok t) :
    Sound g seeds t ∧ work g t ≤ work g s ∧ Step s t := by
  rw [core_of hS hs h0 h1] at h
  have hc := hs.value e h0 h1
  exact foldlM_inv (P := fun t => Sound g seeds t ∧ work g t ≤ work g s ∧ Step s t) _ ⟨hs, le_rfl, Step.refl hs.weak⟩
    (fun o _ b b' hb hbody => by
      obtain ⟨a1, a2, a3⟩ := body_sound hS hb.1 hc hbody
      exact ⟨a1, a2.trans hb.2.1, hb.2.2.trans a3⟩) h

theorem propagate_calm (hS : Serial g) {s : State} (hs : Sound g seeds s) {e : Int} (h0 : 0 ≤ e) (h1 : e < g.nodes) : Calm (propagate g e s) := by
  rw [core_of hS hs h0 h1]
  have hc := hs.value e h0 h1
  exact foldlM_calm (P := Sound g seeds) _ hs (fun o _ b hb => body_calm hS o hb) fun o _ b b' hb hbody => (body_sound hS hb hc hbody).1

/-- Every neighbour one step along an axis away ends at most one farther. -/
theorem propagate_reaches (hS : Serial g) {s t : State} (hs : Sound g seeds s) {e f : Int} (h0 : 0 ≤ e) (h1 : e < g.nodes) (hf0 : 0 ≤ f) (hf1 : f < g.nodes)
    {d : Nat} (hd : d < g.dim) {a : Int} (ha : a = 1 ∨ a = -1) (hadj : ∀ j, j < g.dim → g.position f j = bump (g.position e) d a j) (h : propagate g e s = .ok t) :
    (t.data f).value ≤ (s.data e).value + 1 := by
  have hc := hs.value e h0 h1
  rw [core_of hS hs h0 h1] at h
  obtain ⟨o, ho, hsh⟩ := step_mem (dim := g.dim) d ha (g.position e)
  obtain ⟨l1, l2, hl⟩ := List.append_of_mem ho
  rw [hl, List.foldlM_append] at h
  obtain ⟨s1, e1, h⟩ := bind_ok h
  rw [List.foldlM_cons] at h
  obtain ⟨s2, e2, h⟩ := bind_ok h
  have k1 : Sound g seeds s1 := foldlM_inv (P := Sound g seeds) _ hs (fun o _ b b' hb hbody => (body_sound hS hb hc hbody).1) e1
  have k2 := body_sound hS k1 hc e2
  have k3 : Sound g seeds t ∧ Step s2 t := foldlM_inv (P := fun t => Sound g seeds t ∧ Step s2 t) _ ⟨k2.1, Step.refl k2.1.weak⟩ (fun o _ b b' hb hbody => by
    obtain ⟨a1, -, a3⟩ := body_sound hS hb.1 hc hbody
    exact ⟨a1, hb.2.trans a3⟩) h
  refine (k3.2.le f).trans ?_
  have hnode := Shape.position_isNode hS.wf hf0 hf1
  have hchk : ∀ j, j < g.dim → checked g (shift (g.position e) o) j = g.position f j := by
    intro j hj
    unfold checked
    rw [if_pos hj, hsh j hj, ← hadj j hj]
    exact checkBoundary_inside _ _ _ _ _ _ (hnode j hj)
  have hin : g.IsNode (checked g (shift (g.position e) o)) := fun j hj => by rw [hchk j hj]; exact hnode j hj
  have hbd : ∀ j, bump (g.position e) d a j = g.position e j + if j = d then a else 0 := by
    intro j; unfold bump; rw [Function.update_apply]; split_ifs with c
    · rw [c]
    · rw [add_zero]
  unfold body at e2
  rw [if_neg, if_neg] at e2
  · have := (visit_step k1.weak e2).2
    have hat : g.atVec .serial (checked g (shift (g.position e) o)) = f := by
      have : g.atVec .serial (checked g (shift (g.position e) o)) = g.atVec .serial (g.position f) := by
        rw [Shape.atVec_eq_raw .serial fun j hj => checkBoundary_inside _ _ _ _ _ _ (hin j hj), Shape.atVec_eq_raw .serial fun j hj => checkBoundary_inside _ _ _ _ _ _ (hnode j hj)]
        exact rawOffset_congr hchk
      rw [this, ← Shape.atNode_eq_atVec hS.wf .serial (fun _ => hS.ghosts) hf0 hf1]; rfl
    rw [hat, Finset.sum_congr rfl fun j hj => by
      rw [hchk j (Finset.mem_range.1 hj), hadj j (Finset.mem_range.1 hj), hbd,
        show (g.position e j + (if j = d then a else 0) - g.position e j) * (g.position e j + (if j = d then a else 0) - g.position e j) = if j = d then 1 else 0 by
          split_ifs
          · rcases ha with rfl | rfl <;> ring
          · ring]] at this
    rwa [Finset.sum_ite_eq', if_pos (Finset.mem_range.2 hd)] at this
  · intro hany
    obtain ⟨j, hj, hj'⟩ := List.any_eq_true.1 hany
    have := hin j (List.mem_range.1 hj)
    rw [Bool.or_eq_true, decide_eq_true_iff, decide_eq_true_iff] at hj'
    omega
  · intro hall
    have := beq_iff_eq.1 (List.all_eq_true.1 hall d (List.mem_range.2 hd))
    rw [hsh d hd, hbd, if_pos rfl] at this
    rcases ha with rfl | rfl <;> omega

/-! ## The wave -/

/-- `f` is one step along an axis from `e`. -/
def Beside (g : Shape) (e f : Int) : Prop :=
  ∃ d a, d < g.dim ∧ (a = 1 ∨ a = -1) ∧ ∀ j, j < g.dim → g.position f j = bump (g.position e) d a j

/-- Every voxel that is not waiting has passed its distance on. -/
def Passed (g : Shape) (st : State) : Prop :=
  ∀ e f, 0 ≤ e → e < g.nodes → 0 ≤ f → f < g.nodes → ¬ Holds st.queue e → Beside g e f → (st.data f).value ≤ (st.data e).value + 1

structure Flow (g : Shape) (seeds : List Seed) (st : State) : Prop where
  sound : Sound g seeds st
  zero : ∀ s ∈ seeds, (st.data (g.atVec .serial s.at)).value ≤ 0
  passed : Passed g st

/-- After the propagation of `e0`, all of whose earlier neighbours … -/
theorem passed_step (hS : Serial g) {s t : State} (hs : Sound g seeds s) {e0 : Int} (h0 : 0 ≤ e0) (h1 : e0 < g.nodes)
    (hp : ∀ e f, 0 ≤ e → e < g.nodes → 0 ≤ f → f < g.nodes → e ≠ e0 → ¬ Holds s.queue e → Beside g e f → (s.data f).value ≤ (s.data e).value + 1)
    (h : propagate g e0 s = .ok t) : Passed g t := by
  obtain ⟨-, -, hst⟩ := propagate_sound hS hs h0 h1 h
  intro e f he0 he1 hf0 hf1 hn hb
  have hsame : (t.data e).value = (s.data e).value := by
    have := hst.le e
    by_contra hc
    exact hn (hst.changed e (by omega))
  by_cases hc : e = e0
  · subst hc
    obtain ⟨d, a, hd, ha, hadj⟩ := hb
    rw [hsame]
    exact propagate_reaches hS hs h0 h1 hf0 hf1 hd ha hadj h
  · rw [hsame]
    exact (hst.le f).trans (hp e f he0 he1 hf0 hf1 hc (fun hh => hn (hst.held e hh)) hb)

/-- One round of the marching loop. -/
theorem round_spec (hS : Serial g) {s : State} (hs : Flow g seeds s) (hn : s.queue.size ≠ 0) :
    ∃ e q, s.queue.top = .ok e ∧ (s.queue.pop fun e => (s.data e).value) = .ok q ∧ Calm (propagate g e ⟨s.data, q⟩) ∧
      ∀ t, propagate g e ⟨s.data, q⟩ = .ok t → Flow g seeds t ∧ work g t + 1 ≤ work g s := by
  obtain ⟨q, hq⟩ := pop_ok (key := fun e => (s.data e).value) hs.sound.weak hn
  obtain ⟨w1, w2⟩ := weak_pop hs.sound.weak hq
  have hsz := pop_size hq
  obtain ⟨h0, h1⟩ := hs.sound.range (s.queue.heap 0) ⟨0, by omega, rfl⟩
  have hsnd : Sound g seeds ⟨s.data, q⟩ := ⟨w1, hs.sound.sited, fun e he => hs.sound.range e ((w2 e).1 he).1, hs.sound.value⟩
  refine ⟨s.queue.heap 0, q, by unfold PQ.top; rw [if_neg hn], hq, propagate_calm hS hsnd h0 h1, fun t ht => ?_⟩
  obtain ⟨a1, a2, a3⟩ := propagate_sound hS hsnd h0 h1 ht
  refine ⟨⟨a1, fun x hx => (a3.le _).trans (hs.zero x hx), passed_step hS hsnd h0 h1 (fun e f he0 he1 hf0 hf1 hne hnh hb => ?_) ht⟩, ?_⟩
  · exact hs.passed e f he0 he1 hf0 hf1 (fun hh => hnh ((w2 e).2 ⟨hh, hne⟩)) hb
  · have : work g ⟨s.data, q⟩ + 1 = work g s := by unfold work; dsimp only; omega
    omega

theorem march_spec (hS : Serial g) : ∀ (fuel : Nat) {s : State}, Flow g seeds s → work g s ≤ fuel →
    march g fuel s = .ub ∨ ∃ t, march g fuel s = .ok (some t) ∧ Flow g seeds t ∧ t.queue.size = 0 := by
  intro fuel
  induction fuel with
  | zero =>
    intro s hs hw
    have h0 : s.queue.size = 0 := by unfold work at hw; omega
    exact .inr ⟨s, while_false (by simp [h0]), hs, h0⟩
  | succ n ih =>
    intro s hs hw
    by_cases h0 : s.queue.size = 0
    · exact .inr ⟨s, while_false (by simp [h0]), hs, h0⟩
    · obtain ⟨e, q, e1, e2, e3, e4⟩ := round_spec hS hs h0
      unfold march
      rw [whileLoop, if_pos (by simp [h0])]
      rw [e1, Outcome.ok_bind, e2, Outcome.ok_bind]
      rcases e3 with e3 | ⟨t, e3⟩
      · rw [e3]; exact .inl rfl
      · rw [e3, Outcome.ok_bind, Outcome.ok_bind]
        obtain ⟨a1, a2⟩ := e4 t e3
        exact ih a1 (by omega)

theorem march_flow (hS : Serial g) (fuel : Nat) {s t : State} (hs : Flow g seeds s) (h : march g fuel s = .ok (some t)) : Flow g seeds t ∧ t.queue.size = 0 := by
  unfold march at h
  have := while_inv (fun s => Flow g seeds s) (fun s t hs ht h => by
    obtain ⟨e, q, e1, e2, -, e4⟩ := round_spec hS hs (of_decide_eq_true ht)
    rw [e1, Outcome.ok_bind, e2, Outcome.ok_bind] at h
    obtain ⟨t', e3, h⟩ := bind_ok h
    cases h
    exact (e4 _ e3).1) fuel s t hs h
  exact ⟨this.1, by have := of_decide_eq_false this.2; omega⟩

/-- With nothing waiting no seed is nearer than the distance. -/
theorem flow_final (hS : Serial g) {s : State} (hs : Flow g seeds s) (h0 : s.queue.size = 0) {sd : Seed} (hsd : sd ∈ seeds) (hin : g.IsNode sd.at) :
    ∀ (n : Nat) (e : Int), 0 ≤ e → e < g.nodes → taxi g.dim (g.position e) sd.at = n → (s.data e).value ≤ n := by
  intro n
  induction n with
  | zero =>
    intro e he0 he1 ht
    have hz := hs.zero sd hsd
    have : g.atVec .serial sd.at = e := by
      have h1 : g.atVec .serial sd.at = g.atVec .serial (g.position e) := by
        rw [Shape.atVec_eq_raw .serial fun j hj => checkBoundary_inside _ _ _ _ _ _ (hin j hj),
          Shape.atVec_eq_raw .serial fun j hj => checkBoundary_inside _ _ _ _ _ _ (Shape.position_isNode hS.wf he0 he1 j hj)]
        exact rawOffset_congr fun j hj => (taxi_zero ht j hj).symm
      rw [h1, ← Shape.atNode_eq_atVec hS.wf .serial (fun _ => hS.ghosts) he0 he1]; rfl
    rw [this] at hz
    exact hz
  | succ n ih =>
    intro e he0 he1 ht
    obtain ⟨d, a, hd, ha, hcl, hmid⟩ := taxi_closer (x := g.position e) (y := sd.at) (dim := g.dim) (by omega)
    have hnode := Shape.position_isNode hS.wf he0 he1
    have hin' : g.IsNode (bump (g.position e) d a) := by
      intro j hj
      by_cases hc : j = d
      · subst hc
        have := hin j hj; have := hnode j hj
        omega
      · unfold bump; rw [Function.update_of_ne hc]; exact hnode j hj
    obtain ⟨f0, f1, f2⟩ := position_rawOffset hS hin'
    have hv := ih _ f0 f1 (by rw [taxi_congr f2 fun _ _ => rfl, hcl, ht]; push_cast; ring)
    refine (hs.passed _ e f0 f1 he0 he1 (fun ⟨k, hk, _⟩ => by omega) ⟨d, -a, hd, by rcases ha with rfl | rfl <;> simp, fun j hj => ?_⟩).trans (by push_cast; omega)
    unfold bump at f2 ⊢
    rw [Function.update_apply]
    split_ifs with c
    · subst c
      rw [f2 j hd, Function.update_self]; ring
    · rw [f2 j hj, Function.update_of_ne c]

theorem Sound.more {s : State} (h : Sound g seeds s) (more : List Seed) : Sound g (seeds ++ more) s where
  weak := h.weak
  sited := h.sited
  range := h.range
  value e h0 h1 := by
    rcases h.value e h0 h1 with h | ⟨h, i, sd, a, b⟩
    · exact .inl h
    · refine .inr ⟨h, i, sd, ?_, b⟩
      rw [List.getElem?_append_left (by have := (List.getElem?_eq_some_iff.1 a).1; exact this)]
      exact a

/-- All seeds are set. -/
theorem seedLoop_spec (hS : Serial g) : ∀ (ss done : List Seed) (s : State), Flow g done s → (∀ sd ∈ ss, g.IsNode sd.at) →
    Calm (seedLoop g done.length ss s) ∧ ∀ t, seedLoop g done.length ss s = .ok t → Flow g (done ++ ss) t := by
  intro ss
  induction ss with
  | nil => intro done s hs _; exact ⟨.inr ⟨s, rfl⟩, fun t h => by cases h; rwa [List.append_nil]⟩
  | cons sd ss ih =>
    intro done s hs hin
    have hsd := hin sd List.mem_cons_self
    obtain ⟨h0, h1, hpos⟩ := at_node hS hsd
    rw [seedLoop]
    rw [if_neg (by
      intro hany
      obtain ⟨j, hj, hj'⟩ := List.any_eq_true.1 hany
      have := hsd j (List.mem_range.1 hj)
      rw [Bool.or_eq_true, decide_eq_true_iff, decide_eq_true_iff] at hj'
      omega)]
    dsimp only
    rw [deref_node hS _ h0 h1, Outcome.ok_bind]
    generalize hs' : (⟨Function.update s.data (g.atVec .serial sd.at) { s.data (g.atVec .serial sd.at) with value := 0, id := (done.length : Int) }, s.queue⟩ : State) = s'
    have hq : s'.queue = s.queue := by rw [← hs']
    have hd : ∀ x, x ≠ g.atVec .serial sd.at → s'.data x = s.data x := fun x hx => by rw [← hs']; exact Function.update_of_ne hx ..
    have he : s'.data (g.atVec .serial sd.at) = { s.data (g.atVec .serial sd.at) with value := 0, id := (done.length : Int) } := by
      rw [← hs']; exact Function.update_self ..
    have hle : ∀ x, 0 ≤ x → x < g.nodes → (s'.data x).value ≤ (s.data x).value := by
      intro x a b
      by_cases hc : x = g.atVec .serial sd.at
      · rw [hc, he]; exact hs.sound.nonneg h0 h1
      · rw [hd x hc]
    have hsnd : Sound g (done ++ [sd]) s' := by
      refine ⟨by rw [hq]; exact hs.sound.weak, fun x a b => ?_, by rw [hq]; exact hs.sound.range, fun x a b => ?_⟩
      · by_cases hc : x = g.atVec .serial sd.at
        · rw [hc, he]; exact hs.sound.sited _ h0 h1
        · rw [hd x hc]; exact hs.sound.sited x a b
      · by_cases hc : x = g.atVec .serial sd.at
        · rw [hc, he]
          refine .inr ⟨by show (0 : Int) < far; decide, done.length, sd, by simp, rfl, ?_⟩
          show taxi g.dim _ sd.at ≤ 0
          rw [taxi_congr hpos fun _ _ => rfl]
          unfold taxi; simp
        · rw [hd x hc]; exact (hs.sound.more [sd]).value x a b
    refine ⟨Calm.bind (propagate_calm hS hsnd h0 h1) fun u hu => ?_, fun t ht => ?_⟩
    all_goals
      have key : ∀ u, propagate g (g.atVec .serial sd.at) s' = .ok u → Flow g (done ++ [sd]) u := by
        intro u hu
        obtain ⟨b1, -, b3⟩ := propagate_sound hS hsnd h0 h1 hu
        refine ⟨b1, fun x hx => ?_, passed_step hS hsnd h0 h1 (fun e f he0 he1 hf0 hf1 hne hnh hb => ?_) hu⟩
        · refine (b3.le _).trans ?_
          rcases List.mem_append.1 hx with hx | hx
          · by_cases hc : g.atVec .serial x.at = g.atVec .serial sd.at
            · rw [hc, he]
            · rw [hd _ hc]; exact hs.zero x hx
          · obtain rfl : x = sd := by simpa using hx
            rw [he]
        · rw [hd e hne]
          exact (hle f hf0 hf1).trans (hs.passed e f he0 he1 hf0 hf1 (by rwa [hq] at hnh) hb)
    · have := (ih (done ++ [sd]) u (key u hu) fun x hx => hin x (List.mem_cons_of_mem _ hx)).1
      rwa [List.length_append] at this
    · obtain ⟨u, hu, ht⟩ := bind_ok ht
      have := (ih (done ++ [sd]) u (key u hu) fun x hx => hin x (List.mem_cons_of_mem _ hx)).2 t (by rwa [List.length_append])
      rwa [List.append_assoc] at this

end

/-! ## The tessellation -/

section
variable {dim : Nat} {x0 x1 : Nat → Int}

theorem box_serial (hdim : 0 < dim) (hs : ∀ d, d < dim → x0 d < x1 d) : Serial (box dim x0 x1) :=
  ⟨⟨hdim, hs, le_refl _⟩, rfl, fun _ _ => .inl ⟨rfl, rfl⟩⟩

theorem initial_flow (g : Shape) : Flow g [] (initial g) := by
  have hno : ∀ e, ¬ Holds (initial g).queue e := fun e ⟨k, hk, _⟩ => absurd hk (Nat.not_lt_zero _)
  refine ⟨⟨⟨fun i k hi => absurd hi (Nat.not_lt_zero _), fun e => ⟨fun h => absurd h (hno e), fun h => by cases h⟩⟩, fun e _ _ => rfl, fun e he => absurd he (hno e),
    fun e _ _ => .inl rfl⟩, by simp, fun e f _ _ _ _ _ _ => ?_⟩
  show (2 ^ 31 - 1 : Int) ≤ 2 ^ 31 - 1 + 1
  omega

/-- **C77.** Fast marching ends: with enough time it has either returned or executed undefined behaviour. It does not stop in any other way. -/
theorem distances_end (hdim : dim = 2 ∨ dim = 3) (hs : ∀ d, d < dim → x0 d < x1 d) {seeds : List Seed} (hin : ∀ s ∈ seeds, Tessellate.InBox dim x0 x1 s) :
    ∃ enough, ∀ fuel, enough ≤ fuel → distances dim x0 x1 seeds fuel = .ub ∨ ∃ st, distances dim x0 x1 seeds fuel = .ok (some st) := by
  have hS := box_serial (x0 := x0) (x1 := x1) (show 0 < dim by omega) hs
  obtain ⟨h1, h2⟩ := seedLoop_spec hS seeds [] _ (initial_flow _) hin
  unfold distances
  rw [List.length_nil] at h1 h2
  rcases h1 with h1 | ⟨s, h1⟩
  · exact ⟨0, fun fuel _ => .inl (by rw [if_pos hdim, h1]; rfl)⟩
  · have hf := h2 s h1
    refine ⟨work (box dim x0 x1) s, fun fuel hfuel => ?_⟩
    rw [if_pos hdim, h1, Outcome.ok_bind]
    rcases march_spec hS fuel hf hfuel with h | ⟨t, h, h3, h4⟩
    · rw [h]; exact .inl rfl
    · rw [h]
      exact .inr ⟨t, while_false (by simp [h4])⟩

/-- **C77.** What it returns: every voxel has the number of a seed and its distance, in the sum of the absolute differences of the coordinates, and no seed is nearer. -/
theorem distances_nearest (hs : ∀ d, d < dim → x0 d < x1 d) {seeds : List Seed} (hne : seeds ≠ []) (hin : ∀ s ∈ seeds, Tessellate.InBox dim x0 x1 s)
    (hsmall : ∑ d ∈ Finset.range dim, (x1 d - x0 d) < 2 ^ 31) {fuel : Nat} {st : State} (h : distances dim x0 x1 seeds fuel = .ok (some st)) :
    ∀ e, 0 ≤ e → e < (box dim x0 x1).nodes → ∃ (i : Nat) (s : Seed), seeds[i]? = some s ∧ (st.data e).id = i ∧
      (st.data e).value = taxi dim ((box dim x0 x1).position e) s.at ∧ ∀ s' ∈ seeds, taxi dim ((box dim x0 x1).position e) s.at ≤ taxi dim ((box dim x0 x1).position e) s'.at := by
  unfold distances at h
  split_ifs at h with hdim
  have hS := box_serial (x0 := x0) (x1 := x1) (show 0 < dim by omega) hs
  obtain ⟨s1, h1, h⟩ := bind_ok h
  obtain ⟨s2, h2, h⟩ := andThen_some h
  have f1 : Flow (box dim x0 x1) seeds s1 := (seedLoop_spec hS seeds [] _ (initial_flow _) hin).2 s1 h1
  obtain ⟨f2, -⟩ := march_flow hS fuel f1 h2
  obtain ⟨f3, z3⟩ := march_flow hS fuel f2 h
  intro e he0 he1
  have hup : ∀ s' ∈ seeds, (st.data e).value ≤ taxi dim ((box dim x0 x1).position e) s'.at := by
    intro s' hs'
    have := flow_final hS f3 z3 hs' (hin s' hs') (taxi dim ((box dim x0 x1).position e) s'.at).toNat e he0 he1
      (by have := taxi_nonneg dim ((box dim x0 x1).position e) s'.at; show taxi dim _ _ = _; omega)
    have := taxi_nonneg dim ((box dim x0 x1).position e) s'.at
    omega
  have hlt : (st.data e).value < far := by
    obtain ⟨s', hs'⟩ := List.exists_mem_of_ne_nil _ hne
    refine lt_of_le_of_lt (hup s' hs') ?_
    have hn := Shape.position_isNode hS.wf he0 he1
    have : taxi dim ((box dim x0 x1).position e) s'.at ≤ ∑ d ∈ Finset.range dim, (x1 d - x0 d - 1) := by
      refine Finset.sum_le_sum fun d hd => ?_
      have a : x0 d ≤ (box dim x0 x1).position e d ∧ (box dim x0 x1).position e d < x1 d := hn d (Finset.mem_range.1 hd)
      have b := hin s' hs' d (Finset.mem_range.1 hd)
      rw [abs_le]; omega
    rw [Finset.sum_sub_distrib] at this
    have hc : ∑ _d ∈ Finset.range dim, (1 : Int) = dim := by simp
    rw [hc] at this
    unfold far
    omega
  rcases f3.sound.value e he0 he1 with hv | ⟨-, i, s, a, b, c⟩
  · omega
  · have hm : s ∈ seeds := List.mem_of_getElem? a
    refine ⟨i, s, a, b, le_antisymm (hup s hm) c, fun s' hs' => ?_⟩
    have := hup s' hs'
    have c' : taxi dim ((box dim x0 x1).position e) s.at ≤ (st.data e).value := c
    omega

end

end MMSP.Generators
