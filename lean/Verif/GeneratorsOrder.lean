import Verif.GeneratorsMarch
/-!
# Property C78: fast marching without undefined behaviour

If at least two axes have two nodes or more and no seed is a neighbour of another, the voxels leave the queue in the order of their distances, and the index that
`pop` leaves behind for the top of the queue is never used.
-/

namespace MMSP.Generators

open MMSP.Stencil MMSP.PriorityQueue
open MMSP.Tessellate (Seed State Step Weak Sited visit checked initial whileLoop andThen bind_ok visit_step while_inv while_false while_true weak_push weak_update weak_pop
  weak_up andThen_some)
open MMSP.Conserve (Serial position_rawOffset)

/-! ## A box without one node is connected -/

theorem bump_at (x : Nat → Int) (d : Nat) (a : Int) (j : Nat) : bump x d a j = x j + if j = d then a else 0 := by
  unfold bump; rw [Function.update_apply]; split_ifs with c
  · rw [c]
  · rw [add_zero]

theorem taxi_bump {dim d : Nat} (hd : d < dim) (x y : Nat → Int) (a : Int) : taxi dim (bump x d a) y = taxi dim x y - |x d - y d| + |x d + a - y d| := by
  unfold taxi
  rw [← Finset.add_sum_erase _ _ (Finset.mem_range.2 hd), ← Finset.add_sum_erase _ (fun d => |x d - y d|) (Finset.mem_range.2 hd)]
  rw [Finset.sum_congr rfl fun j hj => by
    show |bump x d a j - y j| = |x j - y j|
    rw [bump_at, if_neg (Finset.mem_erase.1 hj).1, add_zero]]
  rw [bump_at, if_pos rfl]
  ring

/-- Two axes with at least two nodes. -/
def Flat (g : Shape) : Prop := ∃ a b, a < g.dim ∧ b < g.dim ∧ a ≠ b ∧ g.x0 a + 1 < g.x1 a ∧ g.x0 b + 1 < g.x1 b

theorem connected {g : Shape} (hf : Flat g) {p : Nat → Int} (P : (Nat → Int) → Prop) (hcongr : ∀ x y, g.SamePoint x y → P x → P y)
    (hstep : ∀ x d s, g.IsNode x → P x → d < g.dim → (s = 1 ∨ s = -1) → g.IsNode (bump x d s) → ¬ g.SamePoint (bump x d s) p → P (bump x d s))
    {e : Nat → Int} (he : g.IsNode e) (hep : ¬ g.SamePoint e p) : ∀ (n : Nat) (x : Nat → Int), g.IsNode x → P x → taxi g.dim x e = n → P e := by
  intro n
  induction n using Nat.strong_induction_on with
  | _ n ih =>
    intro x hx hP hn
    rcases Nat.eq_zero_or_pos n with rfl | hpos
    · exact hcongr x e (fun j hj => taxi_zero hn j hj) hP
    obtain ⟨d, a, hd, ha, hcl, hmid⟩ := taxi_closer (x := x) (y := e) (dim := g.dim) (by omega)
    have hy : g.IsNode (bump x d a) := by
      intro j hj
      by_cases hc : j = d
      · subst hc; have := hx j hj; have := he j hj; omega
      · rw [bump_at, if_neg hc, add_zero]; exact hx j hj
    by_cases hyp : g.SamePoint (bump x d a) p
    swap
    · exact ih (n - 1) (by omega) _ hy (hstep x d a hx hP hd ha hy hyp) (by omega)
    have hpj : ∀ j, j < g.dim → p j = x j + if j = d then a else 0 := fun j hj => by rw [← hyp j hj, bump_at]
    have hn1 : 0 < taxi g.dim (bump x d a) e := by
      rcases lt_or_eq_of_le (taxi_nonneg g.dim (bump x d a) e) with h | h
      · exact h
      · exact absurd (fun j hj => (taxi_zero h.symm j hj).symm.trans (hyp j hj)) hep
    obtain ⟨d', a', hd', ha', hcl', hmid'⟩ := taxi_closer hn1
    by_cases hdd : d' = d
    · subst hdd
      have hxd := hx d' hd
      have hed := he d' hd
      simp only [bump_at, if_pos] at hmid hmid'
      have haa : a' = a := by omega
      subst haa
      obtain ⟨b, hb, hbd, hlen⟩ : ∃ b, b < g.dim ∧ b ≠ d' ∧ g.x0 b + 1 < g.x1 b := by
        obtain ⟨b1, b2, h1, h2, h3, h4, h5⟩ := hf
        by_cases hc : b1 = d'
        · exact ⟨b2, h2, by omega, h5⟩
        · exact ⟨b1, h1, hc, h4⟩
      obtain ⟨c, hc, hc0, hc1⟩ : ∃ c : Int, (c = 1 ∨ c = -1) ∧ g.x0 b ≤ x b + c ∧ x b + c < g.x1 b := by
        have := hx b hb
        by_cases h : x b + 1 < g.x1 b
        · exact ⟨1, .inl rfl, by omega, h⟩
        · exact ⟨-1, .inr rfl, by omega, by omega⟩
      have hcne : c ≠ 0 := by omega
      have z1n : g.IsNode (bump x b c) := by
        intro j hj; rw [bump_at]; split_ifs with h
        · subst h; exact ⟨hc0, hc1⟩
        · rw [add_zero]; exact hx j hj
      have z2n : g.IsNode (bump (bump x b c) d' a') := by
        intro j hj; rw [bump_at]; split_ifs with h
        · subst h; rw [bump_at, if_neg (Ne.symm hbd)]; omega
        · rw [add_zero]; exact z1n j hj
      have z3n : g.IsNode (bump (bump (bump x b c) d' a') d' a') := by
        intro j hj; rw [bump_at]; split_ifs with h
        · subst h; rw [bump_at, if_pos rfl, bump_at, if_neg (Ne.symm hbd)]; omega
        · rw [add_zero]; exact z2n j hj
      have z4n : g.IsNode (bump (bump (bump (bump x b c) d' a') d' a') b (-c)) := by
        intro j hj; rw [bump_at]; split_ifs with h
        · subst h; rw [bump_at, if_neg hbd, bump_at, if_neg hbd, bump_at, if_pos rfl]
          have := hx j hj; omega
        · rw [add_zero]; exact z3n j hj
      have hpb := hpj b hb
      rw [if_neg hbd] at hpb
      have k1 := hstep x b c hx hP hb hc z1n fun hs => by
        have := hs b hb; rw [bump_at, if_pos rfl] at this; omega
      have k2 := hstep _ d' a' z1n k1 hd ha z2n fun hs => by
        have := hs b hb; rw [bump_at, if_neg hbd, bump_at, if_pos rfl] at this; omega
      have k3 := hstep _ d' a' z2n k2 hd ha z3n fun hs => by
        have := hs b hb; rw [bump_at, if_neg hbd, bump_at, if_neg hbd, bump_at, if_pos rfl] at this; omega
      have k4 := hstep _ b (-c) z3n k3 hb (by omega) z4n fun hs => by
        have := hs d' hd
        rw [bump_at, if_neg (Ne.symm hbd), bump_at, if_pos rfl, bump_at, if_pos rfl, bump_at, if_neg (Ne.symm hbd), hpj d' hd, if_pos rfl] at this
        omega
      refine ih (n - 2) (by omega) _ z4n k4 ?_
      have : taxi g.dim (bump (bump (bump (bump x b c) d' a') d' a') b (-c)) e = taxi g.dim (bump (bump x d' a') d' a') e :=
        taxi_congr (fun j _ => by simp only [bump_at]; split_ifs <;> omega) fun _ _ => rfl
      rw [this, hcl', hcl]
      omega
    · have hz : g.IsNode (bump x d' a') := by
        intro j hj
        by_cases hc : j = d'
        · subst hc
          simp only [bump_at, if_neg hdd, if_pos] at hmid'
          have := hx j hj; have := he j hj
          rw [bump_at, if_pos rfl]; omega
        · rw [bump_at, if_neg hc, add_zero]; exact hx j hj
      refine ih (n - 1) (by omega) _ hz (hstep x d' a' hx hP hd' ha' hz fun hs => ?_) ?_
      · have := hs d' hd'
        rw [bump_at, if_pos rfl, hpj d' hd', if_neg hdd] at this
        omega
      · have t1 := taxi_bump hd' (bump x d a) e a'
        have t2 := taxi_bump hd' x e a'
        rw [bump_at, if_neg hdd, add_zero] at t1
        omega

/-! ## A queue whose map is right -/

section
variable {E K : Type} [DecidableEq E] [LinearOrder K]

/-- The map has the right index of every element. -/
def Straight (q : PQ E) : Prop := ∀ k, k < q.size → q.back (q.heap k) = some k

theorem straight_swap {q : PQ E} {i j : Nat} (h : i ≠ j) (hi : i < q.size) (hj : j < q.size) (hw : Weak q) (hs : Straight q) : Straight (q.swap i j) := by
  obtain ⟨b1, b2, b3⟩ := swap_back h hi hj hw.inj
  intro k hk
  have hk' : k < q.size := hk
  by_cases h1 : k = i
  · subst h1; rw [swap_heap_i h]; exact b1
  · by_cases h2 : k = j
    · subst h2; rw [swap_heap_j h]; exact b2
    · rw [swap_heap_ne h1 h2, b3 _ (fun e => h1 (hw.inj _ _ hk' hi e)) (fun e => h2 (hw.inj _ _ hk' hj e))]
      exact hs k hk'

theorem straight_up (key : E → K) : ∀ (i : Nat) (q q' : PQ E), Weak q → Straight q → q.percolateUp key i = .ok q' → Straight q' := by
  intro i
  induction i using Nat.strong_induction_on with
  | _ i ih =>
    intro q q' hw hs h
    rw [PQ.percolateUp] at h
    split_ifs at h with h1 h2 h3
    · cases h; exact hs
    · have hp := parent_lt (i := i) (by omega)
      have hi : i < q.size := by omega
      exact ih (parent i) hp _ q' (Tessellate.weak_swap (by omega) hi (by omega) hw) (straight_swap (by omega) hi (by omega) hw hs) h
    · cases h; exact hs

theorem straight_down (key : E → K) : ∀ (n i : Nat) (q : PQ E), q.size - i = n → Weak q → Straight q → Straight (q.percolateDown key i) := by
  intro n
  induction n using Nat.strong_induction_on with
  | _ n ih =>
    intro i q hn hw hs
    rw [PQ.percolateDown]
    split_ifs with h1 h2
    · have hc : i < q.child key i ∧ q.child key i < q.size := by unfold PQ.child; split_ifs <;> omega
      exact ih (q.size - q.child key i) (by omega) (q.child key i) (q.swap (q.child key i) i) rfl
        (Tessellate.weak_swap (i := q.child key i) (j := i) (by omega) hc.2 (by omega) hw) (straight_swap (by omega) hc.2 (by omega) hw hs)
    · exact hs
    · exact hs

theorem Placed.weak {q : PQ E} (h : Placed q) : Weak q := ⟨h.inj, fun e => holds_iff_back h e⟩

theorem straight_push {key : E → K} {q q' : PQ E} {e : E} (hw : Weak q) (hs : Straight q) (h : q.push key e = .ok q') : Straight q' := by
  unfold PQ.push at h
  split_ifs at h with h1
  have hne : ∀ k, k < q.size → q.heap k ≠ e := fun k hk he => h1 ((hw.mem e).1 ⟨k, hk, he⟩)
  refine straight_up key _ _ q' ⟨fun i k hi hk he => ?_, fun x => ?_⟩ (fun k hk => ?_) h
  · have hi' : i < q.size + 1 := hi
    have hk' : k < q.size + 1 := hk
    simp only [Function.update_apply] at he
    split_ifs at he with c1 c2 c2
    · omega
    · exact absurd he.symm (hne k (by omega))
    · exact absurd he (hne i (by omega))
    · exact hw.inj i k (by omega) (by omega) he
  · show Holds _ x ↔ (Function.update q.back e (some q.size) x).isSome
    rw [Function.update_apply]
    constructor
    · rintro ⟨k, hk, rfl⟩
      have hk' : k < q.size + 1 := hk
      split_ifs with c
      · rfl
      · dsimp only at c ⊢
        have hkq : k ≠ q.size := fun h => c (by rw [h, Function.update_self])
        rw [Function.update_of_ne hkq]
        exact (hw.mem _).1 ⟨k, by omega, rfl⟩
    · intro hx
      split_ifs at hx with c
      · exact ⟨q.size, Nat.lt_succ_self _, by rw [c]; exact Function.update_self ..⟩
      · obtain ⟨k, hk, hke⟩ := (hw.mem x).2 hx
        exact ⟨k, Nat.lt_succ_of_lt hk, by rw [← hke]; exact Function.update_of_ne (by omega) ..⟩
  · have hk' : k < q.size + 1 := hk
    show Function.update q.back e (some q.size) (Function.update q.heap q.size e k) = some k
    by_cases hkq : k = q.size
    · rw [hkq, Function.update_self, Function.update_self]
    · rw [Function.update_of_ne hkq, Function.update_of_ne (hne k (by omega))]
      exact hs k (by omega)

theorem straight_update {key : E → K} {q q' : PQ E} {e : E} (hw : Weak q) (hs : Straight q) (h : q.updatePosition key e = .ok q') : Straight q' := by
  unfold PQ.updatePosition at h
  split at h
  · cases h
  · obtain ⟨q1, h1, h⟩ := bind_ok h
    split at h
    · cases h
    · cases h
      exact straight_down key _ _ _ rfl (weak_up key _ _ _ hw h1).1 (straight_up key _ _ _ hw hs h1)
end

theorem root_le {E K : Type} [DecidableEq E] [LinearOrder K] {key : E → K} {q : PQ E} (ho : Order key q) {e : E} (h : Holds q e) :
    key (q.heap 0) ≤ key e := by
  obtain ⟨t, h1, -, h2⟩ := top_min ho e h
  obtain ⟨k, hk, -⟩ := h
  unfold PQ.top at h1
  rw [if_neg (by omega)] at h1
  cases h1
  exact h2

/-! ## One propagation -/

/-- What a step between neighbours, across the border or not, can cost. -/
def reach (g : Shape) : Int := ∑ d ∈ Finset.range g.dim, (g.x1 d - g.x0 d - 1) * (g.x1 d - g.x0 d - 1)

/-- The largest distance of two nodes. -/
def span (g : Shape) : Int := ∑ d ∈ Finset.range g.dim, (g.x1 d - g.x0 d - 1)

/-- While the voxel at `pos`, with value `k`, is being propagated. Waiting voxels are among `N`. -/
structure Mid (g : Shape) (seeds : List Seed) (N : Int → Prop) (pos : Nat → Int) (k : Int) (st : State) : Prop where
  sound : Sound g seeds st
  placed : Placed st.queue
  order : Order (fun e => (st.data e).value) st.queue
  low : ∀ e, Holds st.queue e → k ≤ (st.data e).value ∧ 1 ≤ (st.data e).value ∧ N e
  done : ∀ e, 0 ≤ e → e < g.nodes → ¬ Holds st.queue e → (st.data e).value < far → (st.data e).value ≤ k
  own : (st.data (g.atVec .serial pos)).value ≤ k
  tip : Straight st.queue ∨ 0 < st.queue.size ∧ (st.data (st.queue.heap 0)).value ≤ k + 1

section
variable {g : Shape} {seeds : List Seed} {N : Int → Prop} {pos : Nat → Int} {k id : Int}

theorem atVec_congr {p q : Nat → Int} (hp : g.IsNode p) (hq : g.IsNode q) (h : g.SamePoint p q) : g.atVec .serial p = g.atVec .serial q := by
  rw [Shape.atVec_eq_raw .serial fun j hj => checkBoundary_inside _ _ _ _ _ _ (hp j hj), Shape.atVec_eq_raw .serial fun j hj => checkBoundary_inside _ _ _ _ _ _ (hq j hj)]
  exact rawOffset_congr h

theorem step_le_reach {p : Nat → Int} (hp : g.IsNode p) (hpos : g.IsNode pos) :
    ∑ d ∈ Finset.range g.dim, (p d - pos d) * (p d - pos d) ≤ reach g := by
  refine Finset.sum_le_sum fun d hd => ?_
  have h1 := hp d (Finset.mem_range.1 hd)
  have h2 := hpos d (Finset.mem_range.1 hd)
  rw [← abs_mul_abs_self]
  have : |p d - pos d| ≤ g.x1 d - g.x0 d - 1 := by rw [abs_le]; omega
  exact mul_self_le_mul_self (abs_nonneg _) this

theorem visit_mid (hS : Serial g) {p : Nat → Int} (hp : g.IsNode p) (hpos : g.IsNode pos) (hk : 0 ≤ k) (hsmall : k + reach g < 2 ^ 31) (hN : N (g.atVec .serial p))
    (hc : k < far ∧ Reached g seeds pos k id) {s : State} (hm : Mid g seeds N pos k s) : ∃ t, visit g pos k id p s = .ok t ∧ Mid g seeds N pos k t := by
  obtain ⟨h0, h1, -⟩ := at_node hS hp
  have hr := step_le_reach hp hpos
  have hr0 : 0 ≤ ∑ d ∈ Finset.range g.dim, (p d - pos d) * (p d - pos d) := Finset.sum_nonneg fun d _ => mul_self_nonneg _
  have hr1 : (s.data (g.atVec .serial p)).value > k → 1 ≤ ∑ d ∈ Finset.range g.dim, (p d - pos d) * (p d - pos d) := by
    intro hgt
    rcases lt_or_eq_of_le hr0 with h | h
    · exact h
    · exfalso
      have t1 := taxi_le_sq g.dim p pos
      rw [← h] at t1
      have t2 : taxi g.dim p pos = 0 := le_antisymm t1 (taxi_nonneg ..)
      rw [atVec_congr hp hpos fun j hj => taxi_zero t2 j hj] at hgt
      exact absurd hm.own (by omega)
  have hsound := fun t h => (visit_sound (t := t) hS hp hm.sound (.inr hc) h).1
  have hstep := fun t h => (visit_step (t := t) (g := g) (pos := pos) (core := k) (id := id) (p := p) hm.sound.weak h).1
  unfold visit Tessellate.radiussq at hsound hstep ⊢
  dsimp only at hsound hstep ⊢
  rw [if_pos (show ∑ d ∈ Finset.range g.dim, (p d - pos d) * (p d - pos d) < 2 ^ 31 by omega), Outcome.ok_bind,
    if_neg (show ¬ k + ∑ d ∈ Finset.range g.dim, (p d - pos d) * (p d - pos d) ≥ 2 ^ 31 by omega), deref_node hS _ h0 h1, Outcome.ok_bind] at hsound hstep ⊢
  generalize hrr : ∑ d ∈ Finset.range g.dim, (p d - pos d) * (p d - pos d) = r at *
  generalize g.atVec .serial p = e at *
  by_cases h3 : (s.data e).value > k + r
  swap
  · rw [if_neg h3]; exact ⟨s, rfl, hm⟩
  rw [if_pos h3] at hsound hstep ⊢
  have hr1' := hr1 (by omega)
  generalize hd : Function.update s.data e { s.data e with value := k + r, id := id } = data at *
  have hde : (data e).value = k + r := by rw [← hd, Function.update_self]
  have hdx : ∀ x, x ≠ e → (data x).value = (s.data x).value := fun x hx => by rw [← hd, Function.update_of_ne hx]
  have hall : ∃ q, (if s.queue.inHeap e then s.queue.updatePosition (fun e => (data e).value) e else s.queue.push (fun e => (data e).value) e) = .ok q ∧ Placed q ∧
      Order (fun e => (data e).value) q ∧ (∀ x, Holds q x → x = e ∨ Holds s.queue x) ∧ (Straight q ∨ 0 < q.size ∧ (data (q.heap 0)).value ≤ k + 1) := by
    by_cases h4 : s.queue.inHeap e = true
    · rw [if_pos h4]
      have hh : Holds s.queue e := (hm.sound.weak.mem e).2 h4
      have hf : Fresh s.queue e := by
        rcases hm.tip with ht | ⟨-, ht⟩
        · obtain ⟨j, hj, rfl⟩ := hh
          exact ⟨j, hj, rfl, ht j hj⟩
        · refine fresh_of_not_top hm.placed hh fun he => ?_
          rw [← he] at ht; omega
      obtain ⟨q, a1, a2, a3, a4, a5⟩ := update_spec (key' := fun e => (data e).value) hm.placed hm.order hf hdx
      refine ⟨q, a1, a3, a4, fun x hx => .inr ((a5 x).1 hx), ?_⟩
      rcases hm.tip with ht | ⟨ht0, ht⟩
      · exact .inl (straight_update hm.sound.weak ht a1)
      · have hz : Holds q (s.queue.heap 0) := (a5 _).2 ⟨0, ht0, rfl⟩
        refine .inr ⟨by omega, (root_le a4 hz).trans ?_⟩
        show (data (s.queue.heap 0)).value ≤ k + 1
        rw [hdx _ (fun he => by rw [he] at ht; omega)]
        exact ht
    · rw [if_neg h4]
      have hh : ¬ Holds s.queue e := fun hh => h4 ((hm.sound.weak.mem e).1 hh)
      have ho : Order (fun e => (data e).value) s.queue := order_congr hm.order fun j hj => hdx _ fun he => hh ⟨j, hj, he⟩
      obtain ⟨q, a1, a3, a4, a5⟩ := push_spec hm.placed ho hh
      refine ⟨q, a1, a3, a4, fun x hx => (a5 x).1 hx, ?_⟩
      rcases hm.tip with ht | ⟨ht0, ht⟩
      · exact .inl (straight_push hm.sound.weak ht a1)
      · have hz : Holds q (s.queue.heap 0) := (a5 _).2 (.inr ⟨0, ht0, rfl⟩)
        refine .inr ⟨by have := push_size a1; omega, (root_le a4 hz).trans ?_⟩
        show (data (s.queue.heap 0)).value ≤ k + 1
        rw [hdx _ (fun he => by rw [he] at ht; omega)]
        exact ht
  obtain ⟨q, a1, a2, a3, a4, a5⟩ := hall
  rw [a1, Outcome.ok_bind] at hsound hstep ⊢
  have hst := hstep _ rfl
  refine ⟨⟨data, q⟩, rfl, hsound _ rfl, a2, a3, fun x hx => ?_, fun x x0 x1 hx hfin => ?_, (hst.le _).trans hm.own, a5⟩
  · show k ≤ (data x).value ∧ 1 ≤ (data x).value ∧ N x
    by_cases hxe : x = e
    · subst hxe; rw [hde]; exact ⟨by omega, by omega, hN⟩
    · rw [hdx x hxe]
      exact hm.low x ((a4 x hx).resolve_left hxe)
  · have hxe : x ≠ e := by
      rintro rfl
      exact hx (hst.changed x (by show (data x).value < _; rw [hde]; exact h3))
    have hfin' : (data x).value < far := hfin
    show (data x).value ≤ k
    rw [hdx x hxe] at hfin' ⊢
    exact hm.done x x0 x1 (fun hh => hx (hst.held x hh)) hfin'

theorem foldlM_ok {α β : Type} {f : β → α → Outcome β} {P : β → Prop} : ∀ (l : List α) {b : β}, P b → (∀ a ∈ l, ∀ b, P b → ∃ b', f b a = .ok b' ∧ P b') →
    ∃ c, l.foldlM f b = .ok c ∧ P c := by
  intro l
  induction l with
  | nil => intro b hb _; exact ⟨b, rfl, hb⟩
  | cons a l ih =>
    intro b hb h
    obtain ⟨b', h1, h2⟩ := h a List.mem_cons_self b hb
    obtain ⟨c, h3, h4⟩ := ih h2 fun a' ha' => h a' (List.mem_cons_of_mem _ ha')
    exact ⟨c, by rw [List.foldlM_cons, h1]; exact h3, h4⟩

theorem propagate_mid (hS : Serial g) {e : Int} (h0 : 0 ≤ e) (h1 : e < g.nodes) {s : State} (hk : 0 ≤ (s.data e).value) (hsmall : (s.data e).value + reach g < 2 ^ 31)
    (hN : ∀ o ∈ offsets g.dim, g.IsNode (checked g (shift (g.position e) o)) → N (g.atVec .serial (checked g (shift (g.position e) o))))
    (hfar : (s.data e).value < far) (hm : Mid g seeds N (g.position e) (s.data e).value s) :
    ∃ t, propagate g e s = .ok t ∧ Mid g seeds N (g.position e) (s.data e).value t := by
  have hc : (s.data e).value < far ∧ Reached g seeds (g.position e) (s.data e).value (s.data e).id := by
    rcases hm.sound.value e h0 h1 with h | h
    · omega
    · exact h
  rw [core_of hS hm.sound h0 h1]
  refine foldlM_ok (P := Mid g seeds N (g.position e) (s.data e).value) _ hm fun o ho b hb => ?_
  rcases body_cases g (g.position e) (s.data e).value (s.data e).id b o with h | ⟨hp, h⟩
  · exact ⟨b, h, hb⟩
  · rw [h]
    exact visit_mid hS hp (Shape.position_isNode hS.wf h0 h1) hk hsmall (hN o ho hp) hc hb

/-! ## One round -/

/-- Between two rounds. -/
structure Front (g : Shape) (seeds : List Seed) (st : State) : Prop where
  flow : Flow g seeds st
  placed : Placed st.queue
  order : Order (fun e => (st.data e).value) st.queue
  low : ∀ e, Holds st.queue e → 1 ≤ (st.data e).value
  settled : ∀ x y, 0 ≤ x → x < g.nodes → ¬ Holds st.queue x → (st.data x).value < far → Holds st.queue y → (st.data x).value ≤ (st.data y).value

theorem atVec_position (hS : Serial g) {e : Int} (h0 : 0 ≤ e) (h1 : e < g.nodes) : g.atVec .serial (g.position e) = e := by
  rw [← Shape.atNode_eq_atVec hS.wf .serial (fun _ => hS.ghosts) h0 h1]; rfl

/-- A voxel within `n` of a seed has a value of at most `n`, or something so near is still waiting. -/
theorem flow_low (hS : Serial g) {s : State} (hs : Flow g seeds s) {sd : Seed} (hsd : sd ∈ seeds) (hin : g.IsNode sd.at) :
    ∀ (n : Nat) (e : Int), 0 ≤ e → e < g.nodes → taxi g.dim (g.position e) sd.at = n → (s.data e).value ≤ n ∨ ∃ p, Holds s.queue p ∧ (s.data p).value ≤ n := by
  intro n
  induction n with
  | zero =>
    intro e he0 he1 ht
    have hz := hs.zero sd hsd
    rw [atVec_congr hin (Shape.position_isNode hS.wf he0 he1) fun j hj => (taxi_zero ht j hj).symm, atVec_position hS he0 he1] at hz
    exact .inl hz
  | succ n ih =>
    intro e he0 he1 ht
    obtain ⟨d, a, hd, ha, hcl, hmid⟩ := taxi_closer (x := g.position e) (y := sd.at) (dim := g.dim) (by omega)
    have hnode := Shape.position_isNode hS.wf he0 he1
    have hin' : g.IsNode (bump (g.position e) d a) := by
      intro j hj
      by_cases hc : j = d
      · subst hc
        have := hin j hj; have := hnode j hj
        omega
      · unfold bump; rw [Function.update_of_ne hc]; exact hnode j hj
    obtain ⟨f0, f1, f2⟩ := position_rawOffset hS hin'
    rcases ih _ f0 f1 (by rw [taxi_congr f2 fun _ _ => rfl, hcl, ht]; push_cast; ring) with hv | ⟨p, hp, hv⟩
    · by_cases hh : Holds s.queue (g.rawOffset (bump (g.position e) d a))
      · exact .inr ⟨_, hh, by push_cast; omega⟩
      · refine .inl ((hs.passed _ e f0 f1 he0 he1 hh ⟨d, -a, hd, by rcases ha with rfl | rfl <;> simp, fun j hj => ?_⟩).trans (by push_cast; omega))
        rw [bump_at, f2 j hj, bump_at]
        split_ifs <;> omega
    · exact .inr ⟨p, hp, by push_cast; omega⟩

theorem taxi_le_span {x y : Nat → Int} (hx : g.IsNode x) (hy : g.IsNode y) : taxi g.dim x y ≤ span g := by
  refine Finset.sum_le_sum fun d hd => ?_
  have h1 := hx d (Finset.mem_range.1 hd)
  have h2 := hy d (Finset.mem_range.1 hd)
  rw [abs_le]; omega

theorem reach_two (hf : Flat g) (hl : ∀ d, d < g.dim → g.x0 d < g.x1 d) : 2 ≤ reach g := by
  obtain ⟨a, b, ha, hb, hab, h1, h2⟩ := hf
  unfold reach
  refine le_trans ?_ (Finset.sum_le_sum_of_subset_of_nonneg (s := {a, b}) (fun d hd => ?_) fun d _ _ => mul_self_nonneg _)
  · rw [Finset.sum_pair hab]
    nlinarith
  · rcases Finset.mem_insert.1 hd with rfl | hd
    · exact Finset.mem_range.2 ha
    · rw [Finset.mem_singleton.1 hd]; exact Finset.mem_range.2 hb

theorem round_front (hS : Serial g) (hf : Flat g) (hsmall : span g + reach g < 2 ^ 31) {s : State} (hs : Front g seeds s) (hn : s.queue.size ≠ 0) {sd : Seed} (hsd : sd ∈ seeds)
    (hin : g.IsNode sd.at) :
    ∃ e q t, s.queue.top = .ok e ∧ (s.queue.pop fun e => (s.data e).value) = .ok q ∧ propagate g e ⟨s.data, q⟩ = .ok t ∧ Front g seeds t := by
  obtain ⟨e, q, r1, r2, -, r4⟩ := round_spec hS hs.flow hn
  obtain ⟨q', p1, p2, p3, p4, p5⟩ := pop_spec hs.placed hs.order (by omega)
  rw [p1] at r2
  cases r2
  have he : e = s.queue.heap 0 := by
    unfold PQ.top at r1; rw [if_neg hn] at r1; cases r1; rfl
  have htop : Holds s.queue e := ⟨0, by omega, he.symm⟩
  have hmin : ∀ x, Holds s.queue x → (s.data e).value ≤ (s.data x).value := fun x hx => by
    rw [he]; exact root_le (key := fun e => (s.data e).value) hs.order hx
  rw [← he] at p5
  obtain ⟨h0, h1⟩ := hs.flow.sound.range e htop
  have hnode := Shape.position_isNode hS.wf h0 h1
  have hk1 := hs.low e htop
  have hspan : (s.data e).value ≤ span g := by
    have ht := taxi_le_span hnode hin
    have ht0 := taxi_nonneg g.dim (g.position e) sd.at
    rcases flow_low hS hs.flow hsd hin (taxi g.dim (g.position e) sd.at).toNat e h0 h1 (by omega) with h | ⟨p, hp, h⟩
    · omega
    · have := hmin p hp; omega
  have hr2 := reach_two hf hS.wf.side
  have hfar : (s.data e).value + 1 < far := by unfold far; omega
  have hsnd : Sound g seeds ⟨s.data, q⟩ := ⟨Placed.weak p3, hs.flow.sound.sited, fun x hx => hs.flow.sound.range x ((p5 x).1 hx).2, hs.flow.sound.value⟩
  have hdone : ∀ x, 0 ≤ x → x < g.nodes → ¬ Holds q x → (s.data x).value < far → (s.data x).value ≤ (s.data e).value := by
    intro x x0 x1 hx hfin
    by_cases hxe : x = e
    · rw [hxe]
    · exact hs.settled x e x0 x1 (fun hh => hx ((p5 x).2 ⟨hxe, hh⟩)) hfin htop
  have hm : Mid g seeds (fun _ => True) (g.position e) (s.data e).value ⟨s.data, q⟩ := by
    refine ⟨hsnd, p3, p4, fun x hx => ⟨hmin x ((p5 x).1 hx).2, hs.low x ((p5 x).1 hx).2, trivial⟩, hdone, ?_, ?_⟩
    · rw [atVec_position hS h0 h1]
    · by_cases hq : q.size = 0
      · exact .inl fun j (hj : j < q.size) => by omega
      · refine .inr ⟨by show 0 < q.size; omega, ?_⟩
        by_contra hbig
        have hbig' : (s.data e).value + 2 ≤ (s.data (q.heap 0)).value := by
          have : ¬ (s.data (q.heap 0)).value ≤ (s.data e).value + 1 := hbig
          omega
        have hpend : ∀ x, Holds q x → (s.data e).value + 2 ≤ (s.data x).value := fun x hx =>
          hbig'.trans (root_le (key := fun e => (s.data e).value) p4 hx)
        have hroot : Holds q (q.heap 0) := ⟨0, by omega, rfl⟩
        obtain ⟨y0, y1⟩ := hsnd.range _ hroot
        obtain ⟨s0, s1, s2⟩ := at_node hS hin
        have hz := hs.flow.zero sd hsd
        let P : (Nat → Int) → Prop := fun x => ¬ Holds q (g.atVec .serial x) ∧ g.atVec .serial x ≠ e ∧ (s.data (g.atVec .serial x)).value ≤ (s.data e).value
        have hnP : ¬ (g.IsNode (g.position (q.heap 0)) ∧ P (g.position (q.heap 0))) := by
          rintro ⟨-, h, -⟩
          rw [atVec_position hS y0 y1] at h
          exact h hroot
        apply hnP
        have hyn := Shape.position_isNode hS.wf y0 y1
        refine connected hf (p := g.position e) (fun x => g.IsNode x ∧ P x) (fun x y hxy hx => ?_) (fun x d a hx hPx hd ha hb hne => ⟨hb, ?_⟩) hyn (fun hsame => ?_)
          (taxi g.dim sd.at (g.position (q.heap 0))).toNat sd.at hin ⟨hin, ?_⟩ (by have := taxi_nonneg g.dim sd.at (g.position (q.heap 0)); omega)
        · have hy : g.IsNode y := fun j hj => by rw [← hxy j hj]; exact hx.1 j hj
          refine ⟨hy, ?_⟩
          have := hx.2
          dsimp only [P] at this ⊢
          rwa [← atVec_congr hx.1 hy hxy]
        · obtain ⟨x0, x1, x2⟩ := at_node hS hx
          obtain ⟨b0, b1, b2⟩ := at_node hS hb
          have hns : ¬ Holds s.queue (g.atVec .serial x) := fun hh => hPx.2.1 ((p5 _).2 ⟨hPx.2.2.1, hh⟩)
          have hval := hs.flow.passed _ _ x0 x1 b0 b1 hns ⟨d, a, hd, ha, fun j hj => by rw [b2 j hj, bump_at, bump_at, x2 j hj]⟩
          have hle := hPx.2.2.2
          have hb' : ¬ Holds q (g.atVec .serial (bump x d a)) := fun hh => by have := hpend _ hh; omega
          refine ⟨hb', fun heq => hne fun j hj => ?_, hdone _ b0 b1 hb' (by omega)⟩
          rw [← heq, b2 j hj]
        · have : q.heap 0 = e := by
            rw [← atVec_position hS y0 y1, ← atVec_position hS h0 h1]
            exact atVec_congr hyn hnode hsame
          exact ((p5 _).1 hroot).1 this
        · refine ⟨fun hh => by have := hpend _ hh; omega, fun heq => ?_, by omega⟩
          rw [heq] at hz; omega
  obtain ⟨t, ht, hmt⟩ := propagate_mid (N := fun _ => True) (seeds := seeds) (s := ⟨s.data, q⟩) hS h0 h1 (by show 0 ≤ (s.data e).value; omega)
    (by show (s.data e).value + reach g < 2 ^ 31; omega) (fun _ _ _ => trivial) (by show (s.data e).value < far; omega) hm
  refine ⟨e, q, t, r1, p1, ht, (r4 t ht).1, hmt.placed, hmt.order, fun x hx => (hmt.low x hx).2.1, fun x y x0 x1 hx hfin hy => ?_⟩
  exact (hmt.done x x0 x1 hx hfin).trans (hmt.low y hy).1

theorem march_front (hS : Serial g) (hf : Flat g) (hsmall : span g + reach g < 2 ^ 31) {sd : Seed} (hsd : sd ∈ seeds) (hin : g.IsNode sd.at) :
    ∀ (fuel : Nat) {s : State}, Front g seeds s → march g fuel s = .ok none ∨ ∃ t, march g fuel s = .ok (some t) ∧ Front g seeds t := by
  intro fuel
  induction fuel with
  | zero =>
    intro s hs
    unfold march
    rw [whileLoop]
    split_ifs
    · exact .inl rfl
    · exact .inr ⟨s, rfl, hs⟩
  | succ n ih =>
    intro s hs
    by_cases h0 : s.queue.size = 0
    · exact .inr ⟨s, while_false (by simp [h0]), hs⟩
    · obtain ⟨e, q, t, e1, e2, e3, e4⟩ := round_front hS hf hsmall hs h0 hsd hin
      unfold march
      rw [whileLoop, if_pos (by simp [h0]), e1, Outcome.ok_bind, e2, Outcome.ok_bind, e3, Outcome.ok_bind, Outcome.ok_bind]
      exact ih e4

/-! ## The seeds -/

/-- Neighbours, across the border or not. -/
def Near (dim : Nat) (x0 x1 : Nat → Int) (s s' : Seed) : Prop := ∀ d, d < dim → |s.at d - s'.at d| ≤ 1 ∨ |s.at d - s'.at d| = x1 d - x0 d - 1

/-- No seed is a neighbour of another one; several may be at the same place. -/
def Apart (dim : Nat) (x0 x1 : Nat → Int) (seeds : List Seed) : Prop :=
  seeds.Pairwise fun s s' => Near dim x0 x1 s s' → ∀ d, d < dim → s.at d = s'.at d

/-- The voxel is a neighbour of one of the seeds. -/
def Origin (g : Shape) (done : List Seed) (e : Int) : Prop :=
  ∃ s ∈ done, ∃ o ∈ offsets g.dim, g.IsNode (checked g (shift s.at o)) ∧ e = g.atVec .serial (checked g (shift s.at o))

/-- Between two seeds. -/
structure Start (g : Shape) (done : List Seed) (st : State) : Prop where
  flow : Flow g done st
  placed : Placed st.queue
  order : Order (fun e => (st.data e).value) st.queue
  low : ∀ e, Holds st.queue e → 1 ≤ (st.data e).value ∧ Origin g done e
  done : ∀ e, 0 ≤ e → e < g.nodes → ¬ Holds st.queue e → (st.data e).value < far → (st.data e).value ≤ 0
  tip : Straight st.queue ∨ 0 < st.queue.size ∧ (st.data (st.queue.heap 0)).value ≤ 1

theorem Start.front {done : List Seed} {s : State} (h : Start g done s) : Front g done s :=
  ⟨h.flow, h.placed, h.order, fun e he => (h.low e he).1, fun x y x0 x1 hx hf hy => by
    have := h.done x x0 x1 hx hf; have := (h.low y hy).1; omega⟩

end

section
variable {dim : Nat} {x0 x1 : Nat → Int}

theorem getD_offset {k : Nat} {o : List Int} (ho : o ∈ offsets k) (d : Nat) : o.getD d 0 = -1 ∨ o.getD d 0 = 0 ∨ o.getD d 0 = 1 := by
  rw [List.getD_eq_getElem?_getD]
  cases h : o[d]? with
  | none => exact .inr (.inl rfl)
  | some a => exact (mem_offsets.1 ho).2 a (List.mem_of_getElem? h)

/-- Where the neighbours of a seed are. -/
theorem origin_near (hS : Serial (box dim x0 x1)) {s s' : Seed} (hin : Tessellate.InBox dim x0 x1 s) (hin' : Tessellate.InBox dim x0 x1 s') {o : List Int} (ho : o ∈ offsets dim)
    (hn : (box dim x0 x1).IsNode (checked (box dim x0 x1) (shift s.at o)))
    (h : (box dim x0 x1).atVec .serial s'.at = (box dim x0 x1).atVec .serial (checked (box dim x0 x1) (shift s.at o))) : Near dim x0 x1 s s' := by
  intro d hd
  have hpos : s'.at d = checked (box dim x0 x1) (shift s.at o) d := by
    rw [← (at_node hS hn).2.2 d hd, ← h, (at_node hS hin').2.2 d hd]
  have a := hin d hd
  have b := hin' d hd
  have c := getD_offset ho d
  unfold checked at hpos
  rw [if_pos (show d < (box dim x0 x1).dim from hd)] at hpos
  unfold shift checkBoundary at hpos
  generalize o.getD d 0 = z at *
  have hx0 : (box dim x0 x1).x0 d = x0 d := rfl
  have hx1 : (box dim x0 x1).x1 d = x1 d := rfl
  have hb0 : (box dim x0 x1).b0 d = .periodic := rfl
  have hb1 : (box dim x0 x1).b1 d = .periodic := rfl
  rw [hx0, hx1, hb0, hb1] at hpos
  have hp : ¬ (BC.periodic = .neumann ∨ BC.periodic = .dirichlet) := by decide
  have hq : Build.serial = .serial ∧ BC.periodic = .periodic := ⟨rfl, rfl⟩
  rw [if_neg hp, if_pos hq, if_neg hp, if_pos hq] at hpos
  split_ifs at hpos with c1 c2
  · right; rw [abs_of_nonpos (by omega)]; omega
  · right; rw [abs_of_nonneg (by omega)]; omega
  · left; rw [abs_le]; omega

theorem seedLoop_start (hS : Serial (box dim x0 x1)) (hr : reach (box dim x0 x1) < 2 ^ 31) : ∀ (ss done : List Seed) (s : State), Start (box dim x0 x1) done s →
    (∀ sd ∈ done ++ ss, Tessellate.InBox dim x0 x1 sd) → Apart dim x0 x1 (done ++ ss) →
    ∃ t, seedLoop (box dim x0 x1) done.length ss s = .ok t ∧ Start (box dim x0 x1) (done ++ ss) t := by
  intro ss
  induction ss with
  | nil => intro done s hs _ _; exact ⟨s, rfl, by rwa [List.append_nil]⟩
  | cons sd ss ih =>
    intro done s hs hin hap
    have hsd : (box dim x0 x1).IsNode sd.at := hin sd (by simp)
    obtain ⟨h0, h1, hpos⟩ := at_node hS hsd
    -- the voxel is not waiting
    have hnw : ¬ Holds s.queue ((box dim x0 x1).atVec .serial sd.at) := by
      intro hh
      obtain ⟨hv, s', hs', o, ho, hn, he⟩ := hs.low _ hh
      have hin' : (box dim x0 x1).IsNode s'.at := hin s' (List.mem_append_left _ hs')
      have := (List.pairwise_append.1 hap).2.2 s' hs' sd List.mem_cons_self (origin_near hS hin' hsd ho hn he)
      have hz := hs.flow.zero s' hs'
      rw [atVec_congr hin' hsd this] at hz
      omega
    -- flow of the whole loop body from the earlier theorem
    have hfl := (seedLoop_spec hS [sd] done s hs.flow (fun x hx => by rw [List.mem_singleton.1 hx]; exact hsd)).2
    rw [seedLoop] at hfl ⊢
    rw [if_neg (by
      intro hany
      obtain ⟨j, hj, hj'⟩ := List.any_eq_true.1 hany
      have := hsd j (List.mem_range.1 hj)
      rw [Bool.or_eq_true, decide_eq_true_iff, decide_eq_true_iff] at hj'
      omega)] at hfl ⊢
    dsimp only at hfl ⊢
    rw [deref_node hS _ h0 h1, Outcome.ok_bind] at hfl ⊢
    generalize hs' : (⟨Function.update s.data ((box dim x0 x1).atVec .serial sd.at) { s.data ((box dim x0 x1).atVec .serial sd.at) with value := 0, id := (done.length : Int) }, s.queue⟩ : State) = s' at *
    have hq : s'.queue = s.queue := by rw [← hs']
    have hd : ∀ x, x ≠ (box dim x0 x1).atVec .serial sd.at → s'.data x = s.data x := fun x hx => by rw [← hs']; exact Function.update_of_ne hx ..
    have he : s'.data ((box dim x0 x1).atVec .serial sd.at) = { s.data ((box dim x0 x1).atVec .serial sd.at) with value := 0, id := (done.length : Int) } := by
      rw [← hs']; exact Function.update_self ..
    have he0 : (s'.data ((box dim x0 x1).atVec .serial sd.at)).value = 0 := by rw [he]
    have hsnd : Sound (box dim x0 x1) (done ++ [sd]) s' := by
      refine ⟨by rw [hq]; exact hs.flow.sound.weak, fun x a b => ?_, by rw [hq]; exact hs.flow.sound.range, fun x a b => ?_⟩
      · by_cases hc : x = (box dim x0 x1).atVec .serial sd.at
        · rw [hc, he]; exact hs.flow.sound.sited _ h0 h1
        · rw [hd x hc]; exact hs.flow.sound.sited x a b
      · by_cases hc : x = (box dim x0 x1).atVec .serial sd.at
        · rw [hc, he]
          refine .inr ⟨by show (0 : Int) < far; decide, done.length, sd, by simp, rfl, ?_⟩
          show taxi (box dim x0 x1).dim _ sd.at ≤ 0
          rw [taxi_congr hpos fun _ _ => rfl]
          unfold taxi; simp
        · rw [hd x hc]; exact (hs.flow.sound.more [sd]).value x a b
    have hne : ∀ x, Holds s.queue x → s'.data x = s.data x := fun x hx => hd x fun h => hnw (h ▸ hx)
    obtain ⟨t, ht, hm⟩ := propagate_mid (g := box dim x0 x1) (seeds := done ++ [sd]) (s := s') (N := Origin (box dim x0 x1) (done ++ [sd])) hS h0 h1 (by rw [he0])
      (by rw [he0]; omega) (fun o ho hn => by
        have hsame : ∀ j, j < dim → checked (box dim x0 x1) (shift ((box dim x0 x1).position ((box dim x0 x1).atVec .serial sd.at)) o) j = checked (box dim x0 x1) (shift sd.at o) j := by
          intro j hj
          unfold checked shift
          rw [hpos j hj]
        have hn' : (box dim x0 x1).IsNode (checked (box dim x0 x1) (shift sd.at o)) := fun j hj => by rw [← hsame j hj]; exact hn j hj
        exact ⟨sd, by simp, o, ho, hn', atVec_congr hn hn' hsame⟩)
      (by rw [he0]; decide) (by
        rw [he0]
        refine ⟨hsnd, by rw [hq]; exact hs.placed, ?_, fun x hx => ?_, fun x a b hx hf => ?_, ?_, ?_⟩
        · rw [hq]
          exact order_congr hs.order fun j hj => by rw [hne _ ⟨j, hj, rfl⟩]
        · rw [hq] at hx
          rw [hne x hx]
          obtain ⟨l1, s0, l2, l3⟩ := hs.low x hx
          exact ⟨by omega, l1, s0, List.mem_append_left _ l2, l3⟩
        · rw [hq] at hx
          by_cases hc : x = (box dim x0 x1).atVec .serial sd.at
          · rw [hc, he0]
          · rw [hd x hc] at hf ⊢
            exact hs.done x a b hx hf
        · rw [atVec_position hS h0 h1, he0]
        · rw [hq]
          rcases hs.tip with h | ⟨h, h'⟩
          · exact .inl h
          · exact .inr ⟨h, by rw [hne _ ⟨0, h, rfl⟩]; omega⟩)
    rw [ht, Outcome.ok_bind] at hfl ⊢
    rw [he0] at hm
    have hst : Start (box dim x0 x1) (done ++ [sd]) t :=
      ⟨hfl t rfl, hm.placed, hm.order, fun x hx => (hm.low x hx).2, hm.done, by have := hm.tip; rwa [zero_add] at this⟩
    obtain ⟨u, hu, hu'⟩ := ih (done ++ [sd]) t hst (by rw [List.append_assoc]; exact hin) (by rw [List.append_assoc]; exact hap)
    rw [List.length_append] at hu
    exact ⟨u, hu, by rwa [List.append_assoc] at hu'⟩

theorem initial_start (g : Shape) : Start g [] (initial g) := by
  have hno : ∀ e, ¬ Holds (initial g).queue e := fun e ⟨k, hk, _⟩ => absurd hk (Nat.not_lt_zero _)
  refine ⟨initial_flow g, ⟨fun i k hi => absurd hi (Nat.not_lt_zero _), fun k _ hk => absurd hk (Nat.not_lt_zero _), fun h => absurd h (Nat.not_lt_zero _), fun e _ => rfl⟩,
    fun k _ hk => absurd hk (Nat.not_lt_zero _), fun e he => absurd he (hno e), fun e _ _ _ hf => ?_, .inl fun k hk => absurd hk (Nat.not_lt_zero _)⟩
  exact absurd (show (2 ^ 31 - 1 : Int) < far from hf) (by decide)

/-- **C78.** With at least two axes of two nodes or more, and no seed a neighbour of another, fast marching returns. -/
theorem distances_ok (hdim : dim = 2 ∨ dim = 3) (hs : ∀ d, d < dim → x0 d < x1 d) (hf : ∃ a b, a < dim ∧ b < dim ∧ a ≠ b ∧ x0 a + 1 < x1 a ∧ x0 b + 1 < x1 b)
    (hsmall : ∑ d ∈ Finset.range dim, (x1 d - x0 d - 1) + ∑ d ∈ Finset.range dim, (x1 d - x0 d - 1) * (x1 d - x0 d - 1) < 2 ^ 31)
    {seeds : List Seed} (hne : seeds ≠ []) (hin : ∀ s ∈ seeds, Tessellate.InBox dim x0 x1 s) (hap : Apart dim x0 x1 seeds) :
    ∃ enough, ∀ fuel, enough ≤ fuel → ∃ st, distances dim x0 x1 seeds fuel = .ok (some st) := by
  obtain ⟨n, hn⟩ := distances_end hdim hs hin
  refine ⟨n, fun fuel hfuel => (hn fuel hfuel).resolve_left fun hub => ?_⟩
  have hS := box_serial (x0 := x0) (x1 := x1) (show 0 < dim by omega) hs
  obtain ⟨sd, hsd⟩ := List.exists_mem_of_ne_nil _ hne
  have hsp : 0 ≤ span (box dim x0 x1) := Finset.sum_nonneg fun d hd => by
    have := hs d (Finset.mem_range.1 hd); show 0 ≤ x1 d - x0 d - 1; omega
  have hsm : span (box dim x0 x1) + reach (box dim x0 x1) < 2 ^ 31 := hsmall
  obtain ⟨s, h1, h2⟩ := seedLoop_start hS (by omega) seeds [] _ (initial_start _) hin hap
  rw [List.length_nil] at h1
  have hf' : Flat (box dim x0 x1) := hf
  unfold distances at hub
  rw [if_pos hdim, h1, Outcome.ok_bind] at hub
  have h2' : Front (box dim x0 x1) seeds s := h2.front
  rcases march_front hS hf' hsm hsd (hin sd hsd) fuel h2' with h | ⟨t, h, h3⟩
  · rw [h] at hub; cases hub
  · rw [h] at hub
    rcases march_front hS hf' hsm hsd (hin sd hsd) fuel h3 with h' | ⟨u, h', -⟩
    · exact absurd (h'.symm.trans hub) (by simp)
    · exact absurd (h'.symm.trans hub) (by simp)

end

/-- The outcome is undefined behaviour. -/
def isUb {α : Type} : Outcome α → Bool
  | .ub => true
  | _ => false

theorem of_isUb {α : Type} {o : Outcome α} (h : isUb o = true) : o = .ub := by
  cases o <;> first | rfl | cases h

theorem while_more {α : Type} {test : α → Bool} {f : α → Outcome (Option α)} : ∀ (n m : Nat) (a : α), n ≤ m → whileLoop test f n a = .ub → whileLoop test f m a = .ub := by
  intro n
  induction n with
  | zero =>
    intro m a _ h
    rw [whileLoop] at h
    split_ifs at h
  | succ n ih =>
    intro m a hm h
    obtain ⟨m, rfl⟩ : ∃ m', m = m' + 1 := ⟨m - 1, by omega⟩
    rw [whileLoop] at h ⊢
    by_cases ht : test a = true
    · rw [if_pos ht] at h ⊢
      cases hf : f a with
      | ub => rfl
      | abort c => rw [hf] at h; cases h
      | ok b =>
        rw [hf, Outcome.ok_bind] at h
        rw [Outcome.ok_bind]
        cases b with
        | none => cases h
        | some b => exact ih m b (by omega) h
    · rw [if_neg ht] at h; cases h

/-- **C78.** On a row of three nodes with a seed at the end it executes undefined behaviour: the map has the old index of the top of the queue. -/
theorem distances_row_ub {fuel : Nat} (h : 3 ≤ fuel) : distances 2 (fun _ => 0) (fun d => if d = 0 then 3 else 1) [⟨0, 0, 0⟩] fuel = .ub := by
  have hb : ((seedLoop (box 2 (fun _ => 0) fun d => if d = 0 then 3 else 1) 0 [⟨0, 0, 0⟩] (initial (box 2 (fun _ => 0) fun d => if d = 0 then 3 else 1))).bind fun st =>
      march (box 2 (fun _ => 0) fun d => if d = 0 then 3 else 1) 3 st) = .ub := of_isUb (by decide +kernel)
  unfold distances
  rw [if_pos (.inl rfl)]
  cases hl : seedLoop (box 2 (fun _ => 0) fun d => if d = 0 then 3 else 1) 0 [⟨0, 0, 0⟩] (initial (box 2 (fun _ => 0) fun d => if d = 0 then 3 else 1)) with
  | ub => rfl
  | abort c => rw [hl] at hb; cases hb
  | ok s =>
    rw [hl, Outcome.ok_bind] at hb
    rw [Outcome.ok_bind, show march (box 2 (fun _ => 0) fun d => if d = 0 then 3 else 1) fuel s = .ub from while_more 3 fuel s h hb]
    rfl

end MMSP.Generators
