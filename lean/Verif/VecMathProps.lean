import Verif.VecMath
import Verif.IndexProps
import Mathlib.Data.Rat.Floor
import Mathlib.Algebra.Order.Ring.Rat
/-!
# Property C59: arithmetic of vector cells and of grids
-/

namespace MMSP.VecMath

open Stencil (elem gridAt)

variable {T U : Type}

theorem mapM_ok {α β : Type} {f : α → Outcome β} {v : α → β} {l : List α} (h : ∀ i ∈ l, f i = .ok (v i)) :
    l.mapM f = .ok (l.map v) := by
  induction l with
  | nil => rfl
  | cons a l ih =>
    rw [List.mapM_cons, h a (by simp)]
    simp only [Outcome.bind_eq, Outcome.ok_bind]
    rw [ih fun i hi => h i (by simp [hi])]
    rfl

theorem elem_ok {x : List T} {i : Nat} (h : i < x.length) : elem x i = .ok x[i] := by
  unfold elem
  rw [List.getElem?_eq_getElem h]

theorem elem_abort {x : List T} {i : Nat} (h : x.length ≤ i) : elem x i = .abort 134 := by
  unfold elem
  rw [List.getElem?_eq_none h]

/-- What a componentwise operation should return: components of `x` combined with those of `y` in the same place. -/
def Pointwise (f : T → T → T) (x y z : List T) : Prop :=
  z.length = x.length ∧ ∀ i (hx : i < x.length) (hy : i < y.length) (hz : i < z.length), z[i] = f x[i] y[i]

theorem zipWith_pointwise (f : T → T → T) {x y : List T} (h : x.length ≤ y.length) :
    Pointwise f x y (List.zipWith f x y) := by
  refine ⟨by rw [List.length_zipWith]; omega, ?_⟩
  intro i hx hy hz
  rw [List.getElem_zipWith]

theorem pointwise_unique (f : T → T → T) {x y z w : List T} (h : x.length ≤ y.length) (hz : Pointwise f x y z)
    (hw : Pointwise f x y w) : z = w := by
  apply List.ext_getElem (by rw [hz.1, hw.1])
  intro i h1 h2
  have := hz.1
  rw [hz.2 i (by omega) (by omega) h1, hw.2 i (by omega) (by omega) h2]

/-- Loop over `0 .. n-1` that stops at `m`. -/
theorem mapM_range_abort {α : Type} {f : Nat → Outcome α} {n m : Nat} (hm : m < n) {v : Nat → α}
    (h : ∀ i, i < m → f i = .ok (v i)) {c : Int} (ha : f m = .abort c) : (List.range n).mapM f = .abort c := by
  induction n with
  | zero => omega
  | succ n ih =>
    rw [List.range_succ, List.mapM_append]
    by_cases hn : m = n
    · subst hn
      rw [mapM_ok fun i hi => h i (List.mem_range.1 hi)]
      simp only [Outcome.bind_eq, Outcome.ok_bind, List.mapM_cons, ha, Outcome.abort_bind]
    · rw [ih (by omega)]
      rfl

theorem zip_ok (f : T → T → T) {x y : List T} (h : x.length ≤ y.length) : zip f x y = .ok (List.zipWith f x y) := by
  have aux : ∀ k, k ≤ x.length → (List.range k).mapM (fun i => do
      let a ← elem x i
      let b ← elem y i
      pure (f a b)) = Outcome.ok ((List.zipWith f x y).take k) := by
    intro k hk
    induction k with
    | zero => rfl
    | succ k ih =>
      rw [List.range_succ, List.mapM_append, ih (by omega)]
      simp only [Outcome.bind_eq, Outcome.ok_bind, List.mapM_cons, elem_ok (show k < x.length by omega),
        elem_ok (show k < y.length by omega), List.mapM_nil, Outcome.pure_eq]
      rw [List.take_add_one, List.getElem?_eq_getElem (by rw [List.length_zipWith]; omega), List.getElem_zipWith]
      rfl
  unfold zip
  rw [aux _ le_rfl, List.take_of_length_le (by rw [List.length_zipWith]; omega)]

/-- A shorter second operand stops the program in the assertion of `operator[]`. -/
theorem zip_aborts (f : T → T → T) {x y : List T} (h : y.length < x.length) : zip f x y = .abort 134 := by
  have hv : ∀ i, i < y.length → ∃ v, (do
      let a ← elem x i
      let b ← elem y i
      pure (f a b)) = Outcome.ok v := fun i hi => ⟨f x[i] y[i], by
    simp only [Outcome.bind_eq, elem_ok (show i < x.length by omega), elem_ok hi, Outcome.ok_bind, Outcome.pure_eq]⟩
  unfold zip
  have hx : 0 < x.length := by omega
  refine mapM_range_abort h (v := fun i => if hi : i < y.length then f (x[i]'(by omega)) y[i] else x[0]) (fun i hi => ?_) ?_
  · rw [dif_pos hi]
    simp only [Outcome.bind_eq, elem_ok (show i < x.length by omega), elem_ok hi, Outcome.ok_bind, Outcome.pure_eq]
  · simp only [Outcome.bind_eq, elem_ok h, elem_abort (le_refl y.length), Outcome.ok_bind, Outcome.abort_bind]

/-- The in-place loops compute the same as the ones that build a new vector, also when both operands are one object. -/
theorem zipEq_eq (f : T → T → T) (x : List T) (y : Option (List T)) : zipEq f x y = zip f x (y.getD x) := by
  have step : ∀ k, k ≤ x.length → k ≤ (y.getD x).length → (List.range k).foldlM (fun c i => do
      let a ← elem c i
      let b ← elem (y.getD c) i
      if i < c.length then pure (c.set i (f a b)) else Outcome.ub) x =
      Outcome.ok ((List.zipWith f x (y.getD x)).take k ++ x.drop k) := by
    intro k hk hk'
    induction k with
    | zero => simp
    | succ k ih =>
      rw [List.range_succ, List.foldlM_append, ih (by omega) (by omega)]
      have hl : ((List.zipWith f x (y.getD x)).take k).length = k := by
        rw [List.length_take, List.length_zipWith]; omega
      have hlen : ((List.zipWith f x (y.getD x)).take k ++ x.drop k).length = x.length := by
        rw [List.length_append, hl, List.length_drop]; omega
      have hc : ((List.zipWith f x (y.getD x)).take k ++ x.drop k)[k]? = some x[k] := by
        rw [List.getElem?_append_right (by omega), hl, List.getElem?_drop]
        simp
      have e1 : elem ((List.zipWith f x (y.getD x)).take k ++ x.drop k) k = .ok x[k] := by
        unfold elem; rw [hc]
      have e2 : elem (y.getD ((List.zipWith f x (y.getD x)).take k ++ x.drop k)) k = .ok ((y.getD x)[k]) := by
        cases y with
        | none => exact e1
        | some y => exact elem_ok (show k < y.length from hk')
      simp only [Outcome.bind_eq, Outcome.ok_bind, List.foldlM_cons, List.foldlM_nil, e1, e2, hlen,
        if_pos (show k < x.length by omega), Outcome.pure_eq]
      congr 1
      rw [List.set_append_right _ _ (by omega), hl, Nat.sub_self, List.drop_eq_getElem_cons (by omega), List.set_cons_zero,
        List.take_add_one, List.getElem?_eq_getElem (by rw [List.length_zipWith]; omega), List.getElem_zipWith,
        List.append_assoc]
      rfl
  by_cases h : x.length ≤ (y.getD x).length
  · rw [zip_ok f h]
    unfold zipEq
    rw [step _ le_rfl h, List.drop_length, List.append_nil, List.take_of_length_le (by rw [List.length_zipWith]; omega)]
  · cases y with
    | none => exact absurd le_rfl h
    | some y =>
      have h' : y.length < x.length := by simpa using h
      rw [Option.getD_some, zip_aborts f h']
      unfold zipEq
      have aux : ∀ n, y.length < n → n ≤ x.length → (List.range n).foldlM (fun c i => do
          let a ← elem c i
          let b ← elem ((some y).getD c) i
          if i < c.length then pure (c.set i (f a b)) else Outcome.ub) x = Outcome.abort 134 := by
        intro n hn hnx
        induction n with
        | zero => omega
        | succ n ih =>
          rw [List.range_succ, List.foldlM_append]
          by_cases e : y.length = n
          · subst e
            rw [step y.length (by omega) le_rfl]
            have hc : elem ((List.zipWith f x y).take y.length ++ x.drop y.length) y.length = .ok x[y.length] := by
              have hl : ((List.zipWith f x y).take y.length).length = y.length := by
                rw [List.length_take, List.length_zipWith]; omega
              unfold elem
              rw [List.getElem?_append_right (by omega), hl, List.getElem?_drop]
              simp [List.getElem?_eq_getElem h']
            simp only [Outcome.bind_eq, Outcome.ok_bind, List.foldlM_cons, List.foldlM_nil, Option.getD_some, hc,
              elem_abort (le_refl y.length), Outcome.abort_bind]
          · rw [ih (by omega) (by omega)]
            rfl
      exact aux _ h' le_rfl

/-- C59: every componentwise operation returns the componentwise result when the second operand is at least as long as the
first, and stops in an assertion otherwise. -/
theorem componentwise (f : T → T → T) (x y : List T) :
    (x.length ≤ y.length → ∃ z, zip f x y = .ok z ∧ Pointwise f x y z) ∧
    (y.length < x.length → zip f x y = .abort 134) :=
  ⟨fun h => ⟨_, zip_ok f h, zipWith_pointwise f h⟩, zip_aborts f⟩

/-- C59: `x + y` and `x += y` -/
theorem add_spec [Add T] (x y : List T) :
    (x.length ≤ y.length → ∃ z, add x y = .ok z ∧ addEq x (some y) = .ok z ∧ Pointwise (fun a b => a + b) x y z) ∧
    (y.length < x.length → add x y = .abort 134 ∧ addEq x (some y) = .abort 134) := by
  unfold add addEq
  rw [zipEq_eq, Option.getD_some]
  exact ⟨fun h => ⟨_, zip_ok _ h, zip_ok _ h, zipWith_pointwise _ h⟩, fun h => ⟨zip_aborts _ h, zip_aborts _ h⟩⟩

/-- C59: `x - y` and `x -= y` -/
theorem sub_spec [Sub T] (x y : List T) :
    (x.length ≤ y.length → ∃ z, sub x y = .ok z ∧ subEq x (some y) = .ok z ∧ Pointwise (fun a b => a - b) x y z) ∧
    (y.length < x.length → sub x y = .abort 134 ∧ subEq x (some y) = .abort 134) := by
  unfold sub subEq
  rw [zipEq_eq, Option.getD_some]
  exact ⟨fun h => ⟨_, zip_ok _ h, zip_ok _ h, zipWith_pointwise _ h⟩, fun h => ⟨zip_aborts _ h, zip_aborts _ h⟩⟩

/-- C59: `x += x` doubles every component, `x -= x` subtracts every component from itself. -/
theorem self_spec [Add T] [Sub T] (x : List T) :
    addEq x none = .ok (x.map fun a => a + a) ∧ subEq x none = .ok (x.map fun a => a - a) := by
  unfold addEq subEq
  rw [zipEq_eq, zipEq_eq, Option.getD_none, zip_ok _ le_rfl, zip_ok _ le_rfl, List.zipWith_self, List.zipWith_self]
  exact ⟨rfl, rfl⟩

/-- C59: for operands of one length addition commutes and subtraction undoes it. -/
theorem add_laws [AddCommGroup T] {x y : List T} (h : x.length = y.length) :
    add x y = add y x ∧ (do let z ← add x y; sub z y) = .ok x := by
  unfold add sub
  rw [zip_ok _ h.le, zip_ok _ h.ge]
  refine ⟨?_, ?_⟩
  · congr 1
    apply List.ext_getElem (by simp [h])
    intro i h1 h2
    rw [List.getElem_zipWith, List.getElem_zipWith, add_comm]
  · simp only [Outcome.bind_eq, Outcome.ok_bind]
    rw [zip_ok _ (by rw [List.length_zipWith]; omega)]
    congr 1
    apply List.ext_getElem (by simp [h])
    intro i h1 h2
    rw [List.getElem_zipWith, List.getElem_zipWith, add_sub_cancel_right]

/-- Without equal lengths it does not commute: one order works, the other one stops the program. -/
theorem add_not_comm : add [1, 2] [10, 20, (30 : Int)] = .ok [11, 22] ∧ add [10, 20, 30] [1, (2 : Int)] = .abort 134 := by
  decide

/-- C59: `min` and `max`: componentwise, and below resp. above both operands. -/
theorem min_max_spec [LinearOrder T] {x y : List T} (h : x.length ≤ y.length) :
    ∃ z w, min x y = .ok z ∧ max x y = .ok w ∧ z.length = x.length ∧ w.length = x.length ∧
      ∀ i (hi : i < x.length) (hy : i < y.length) (hz : i < z.length) (hw : i < w.length),
        z[i] = Min.min x[i] y[i] ∧ w[i] = Max.max x[i] y[i] := by
  refine ⟨_, _, zip_ok _ h, zip_ok _ h, (zipWith_pointwise _ h).1, (zipWith_pointwise _ h).1, ?_⟩
  intro i hi hy hz hw
  rw [(zipWith_pointwise minOf h).2 i hi hy hz, (zipWith_pointwise maxOf h).2 i hi hy hw]
  unfold minOf maxOf
  constructor
  · split
    · rename_i hlt; rw [min_eq_left hlt.le]
    · rename_i hlt; rw [min_eq_right (not_lt.1 hlt)]
  · split
    · rename_i hlt; rw [max_eq_left hlt.le]
    · rename_i hlt; rw [max_eq_right (not_lt.1 hlt)]

/-- C59: multiplication by a number: every component is multiplied by the number *after* conversion to the element type. -/
theorem smul_spec [Mul T] (conv : U → T) (v : U) (x : List T) : smul conv v x = .ok (x.map fun a => conv v * a) := by
  have aux : ∀ k, k ≤ x.length → (List.range k).mapM (fun i => do
      let a ← elem x i
      pure (conv v * a)) = Outcome.ok ((x.map fun a => conv v * a).take k) := by
    intro k hk
    induction k with
    | zero => rfl
    | succ k ih =>
      rw [List.range_succ, List.mapM_append, ih (by omega)]
      simp only [Outcome.bind_eq, Outcome.ok_bind, List.mapM_cons, elem_ok (show k < x.length by omega),
        List.mapM_nil, Outcome.pure_eq]
      rw [List.take_add_one, List.getElem?_eq_getElem (by rw [List.length_map]; omega), List.getElem_map]
      rfl
  unfold smul
  rw [aux _ le_rfl, List.take_of_length_le (by rw [List.length_map])]

/-- C59: `x *= value` -/
theorem mulEq_spec [Mul T] (conv : U → T) (v : U) (x : List T) : mulEq conv x v = .ok (x.map fun a => a * conv v) := by
  have aux : ∀ k, k ≤ x.length → (List.range k).foldlM (fun c i => do
      let a ← elem c i
      if i < c.length then pure (c.set i (a * conv v)) else Outcome.ub) x =
      Outcome.ok ((x.map fun a => a * conv v).take k ++ x.drop k) := by
    intro k hk
    induction k with
    | zero => simp
    | succ k ih =>
      rw [List.range_succ, List.foldlM_append, ih (by omega)]
      have hl : ((x.map fun a => a * conv v).take k).length = k := by rw [List.length_take, List.length_map]; omega
      have hlen : ((x.map fun a => a * conv v).take k ++ x.drop k).length = x.length := by
        rw [List.length_append, hl, List.length_drop]; omega
      have e1 : elem ((x.map fun a => a * conv v).take k ++ x.drop k) k = .ok x[k] := by
        unfold elem
        rw [List.getElem?_append_right (by omega), hl, List.getElem?_drop]
        simp [List.getElem?_eq_getElem (show k < x.length by omega)]
      simp only [Outcome.bind_eq, Outcome.ok_bind, List.foldlM_cons, List.foldlM_nil, e1, hlen,
        if_pos (show k < x.length by omega), Outcome.pure_eq]
      congr 1
      rw [List.set_append_right _ _ (by omega), hl, Nat.sub_self, List.drop_eq_getElem_cons (by omega), List.set_cons_zero,
        List.take_add_one, List.getElem?_eq_getElem (by rw [List.length_map]; omega), List.getElem_map,
        List.append_assoc]
      rfl
  unfold mulEq
  rw [aux _ le_rfl, List.drop_length, List.append_nil, List.take_of_length_le (by rw [List.length_map])]

/-- Multiplying a `vector<int>` by 1/2 therefore gives zero everywhere (conversion to `int` drops the fraction). -/
theorem smul_half (x : List Int) :
    smul (fun q : ℚ => (q.num.tdiv q.den)) (1 / 2) x = .ok (x.map fun _ => 0) := by
  rw [smul_spec]
  congr 1
  apply List.map_congr_left
  intro a _
  have : ((1 / 2 : ℚ).num.tdiv (1 / 2 : ℚ).den) = 0 := by decide +kernel
  rw [this, zero_mul]

/-- C59: the inner product is the sum of the products of the components both operands have, in any case without error. -/
theorem dot_spec [NonUnitalNonAssocSemiring T] (x y : List T) : dot x y = .ok (List.zipWith (fun a b => a * b) x y).sum := by
  have aux : ∀ k, k ≤ x.length → k ≤ y.length → (List.range k).foldlM (fun z i => do
      let a ← elem x i
      let b ← elem y i
      pure (z + a * b)) 0 = Outcome.ok ((List.zipWith (fun a b => a * b) x y).take k).sum := by
    intro k hk hk'
    induction k with
    | zero => simp
    | succ k ih =>
      rw [List.range_succ, List.foldlM_append, ih (by omega) (by omega)]
      simp only [Outcome.bind_eq, Outcome.ok_bind, List.foldlM_cons, List.foldlM_nil, elem_ok (show k < x.length by omega),
        elem_ok (show k < y.length by omega), Outcome.pure_eq]
      congr 1
      rw [List.take_add_one, List.getElem?_eq_getElem (by rw [List.length_zipWith]; omega), List.getElem_zipWith,
        List.sum_append]
      simp
  unfold dot
  split
  · rw [aux _ (by omega) le_rfl, List.take_of_length_le (by rw [List.length_zipWith]; omega)]
  · rw [aux _ le_rfl (by omega), List.take_of_length_le (by rw [List.length_zipWith]; omega)]

/-- C59: the inner product is symmetric. -/
theorem dot_comm [NonUnitalCommSemiring T] (x y : List T) : dot x y = dot y x := by
  rw [dot_spec, dot_spec]
  congr 2
  apply List.ext_getElem (by simp [Nat.min_comm])
  intro i h1 h2
  rw [List.getElem_zipWith, List.getElem_zipWith, mul_comm]

/-- C59: and linear in each operand. -/
theorem dot_add [NonUnitalSemiring T] {x y w z : List T} (h : x.length = y.length) (hw : add x y = .ok w) :
    ∃ a b c, dot x z = .ok a ∧ dot y z = .ok b ∧ dot w z = .ok c ∧ c = a + b := by
  refine ⟨_, _, _, dot_spec x z, dot_spec y z, dot_spec w z, ?_⟩
  unfold add at hw
  rw [zip_ok _ h.le] at hw
  cases hw
  induction x generalizing y z with
  | nil =>
    have : y = [] := List.length_eq_zero_iff.1 h.symm
    subst this
    simp
  | cons a x ih =>
    cases y with
    | nil => simp at h
    | cons b y =>
      cases z with
      | nil => simp
      | cons c z =>
        have := ih (y := y) (z := z) (by simpa using h)
        simp only [List.zipWith_cons_cons, List.sum_cons, this, add_mul]
        abel

/-! ## Grids -/

/-- State of the array after all cells, when no cell stops the program. -/
theorem gridZip_gen {f : T → T → Outcome T} {g src : Shape} (hc : g.cells ≤ src.cells) {data other v : Int → T}
    (hv : ∀ p, 0 ≤ p → p < g.cells → f (data p) (other p) = .ok (v p)) :
    gridZip f g src data other = .ok fun p => if 0 ≤ p ∧ p < g.cells then v p else data p := by
  have aux : ∀ n : Nat, (n : Int) ≤ g.cells ∨ n = 0 → (List.range n).foldlM (fun (c : Int → T) (i : Nat) => do
      let b ← deref src other i
      let a ← deref g c i
      let v ← f a b
      store g c i v) data =
      Outcome.ok fun p => if 0 ≤ p ∧ p < (n : Int) then v p else data p := by
    intro n hn
    induction n with
    | zero =>
      rw [List.range_zero, List.foldlM_nil]
      simp only [Outcome.pure_eq]
      congr 1
      funext p
      rw [if_neg (by push_cast; omega)]
    | succ n ih =>
      have hn' : ((n : Int) + 1) ≤ g.cells := by
        rcases hn with h | h
        · push_cast at h; exact h
        · omega
      rw [List.range_succ, List.foldlM_append, ih (Or.inl (by omega))]
      simp only [Outcome.bind_eq, Outcome.ok_bind, List.foldlM_cons, List.foldlM_nil, Outcome.pure_eq]
      unfold deref store
      rw [if_pos (by omega), Outcome.ok_bind, if_pos (by omega), Outcome.ok_bind]
      beta_reduce
      rw [if_neg (show ¬ ((0 : Int) ≤ n ∧ (n : Int) < n) by omega), hv n (by omega) (by omega), Outcome.ok_bind,
        if_pos (by omega), Outcome.ok_bind]
      congr 1
      funext p
      by_cases hp : p = n
      · subst hp
        rw [Function.update_self, if_pos (show (0 : Int) ≤ n ∧ (n : Int) < ((n + 1 : Nat) : Int) by push_cast; omega)]
      · rw [Function.update_of_ne hp]
        by_cases h : 0 ≤ p ∧ p < (n : Int)
        · rw [if_pos h, if_pos (by push_cast; omega)]
        · rw [if_neg h, if_neg (by push_cast; omega)]
  unfold gridZip
  have := aux g.cells.toNat (by omega)
  rw [this]
  congr 1
  funext p
  by_cases h : 0 ≤ p ∧ p < g.cells
  · rw [if_pos h, if_pos (by omega)]
  · rw [if_neg h, if_neg (by omega)]

theorem gridZip_ok (f : T → T → T) {g src : Shape} (hc : g.cells ≤ src.cells) (data other : Int → T) :
    gridZip (fun a b => .ok (f a b)) g src data other =
      .ok fun p => if 0 ≤ p ∧ p < g.cells then f (data p) (other p) else data p :=
  gridZip_gen hc (v := fun p => f (data p) (other p)) fun _ _ _ => rfl

/-- The first cell that stops the program stops the loop. -/
theorem gridZip_abort {f : T → T → Outcome T} {g src : Shape} (hc : g.cells ≤ src.cells) {data other v : Int → T} {q : Int}
    {e : Int} (h0 : 0 ≤ q) (h1 : q < g.cells) (hv : ∀ p, 0 ≤ p → p < q → f (data p) (other p) = .ok (v p))
    (he : f (data q) (other q) = .abort e) : gridZip f g src data other = .abort e := by
  have ok : ∀ n : Nat, (n : Int) ≤ q → (List.range n).foldlM (fun (c : Int → T) (i : Nat) => do
      let b ← deref src other i
      let a ← deref g c i
      let v ← f a b
      store g c i v) data = Outcome.ok fun p => if 0 ≤ p ∧ p < (n : Int) then v p else data p := by
    intro n hn
    induction n with
    | zero =>
      rw [List.range_zero, List.foldlM_nil]
      simp only [Outcome.pure_eq]
      congr 1
      funext p
      rw [if_neg (by push_cast; omega)]
    | succ n ih =>
      push_cast at hn
      rw [List.range_succ, List.foldlM_append, ih (by omega)]
      simp only [Outcome.bind_eq, Outcome.ok_bind, List.foldlM_cons, List.foldlM_nil, Outcome.pure_eq]
      unfold deref store
      rw [if_pos (by omega), Outcome.ok_bind, if_pos (by omega), Outcome.ok_bind]
      beta_reduce
      rw [if_neg (show ¬ ((0 : Int) ≤ n ∧ (n : Int) < n) by omega), hv n (by omega) (by omega), Outcome.ok_bind,
        if_pos (by omega), Outcome.ok_bind]
      congr 1
      funext p
      by_cases hp : p = n
      · subst hp
        rw [Function.update_self, if_pos (show (0 : Int) ≤ n ∧ (n : Int) < ((n + 1 : Nat) : Int) by push_cast; omega)]
      · rw [Function.update_of_ne hp]
        by_cases h : 0 ≤ p ∧ p < (n : Int)
        · rw [if_pos h, if_pos (by push_cast; omega)]
        · rw [if_neg h, if_neg (by push_cast; omega)]
  have aux : ∀ n : Nat, q < n → (n : Int) ≤ g.cells → (List.range n).foldlM (fun (c : Int → T) (i : Nat) => do
      let b ← deref src other i
      let a ← deref g c i
      let v ← f a b
      store g c i v) data = Outcome.abort e := by
    intro n hn hg
    induction n with
    | zero => push_cast at hn; omega
    | succ n ih =>
      push_cast at hn hg
      rw [List.range_succ, List.foldlM_append]
      by_cases hq : q < n
      · rw [ih hq (by omega)]
        rfl
      · have hqn : q = n := by omega
        rw [ok n (by omega)]
        simp only [Outcome.bind_eq, Outcome.ok_bind, List.foldlM_cons, List.foldlM_nil, Outcome.pure_eq]
        unfold deref
        rw [if_pos (by omega), Outcome.ok_bind, if_pos (by omega), Outcome.ok_bind]
        beta_reduce
        rw [if_neg (show ¬ ((0 : Int) ≤ n ∧ (n : Int) < n) by omega), ← hqn, he]
        rfl
  unfold gridZip
  exact aux _ (by omega) (by omega)

/-- A smaller source array is read past its end. -/
theorem gridZip_ub (f : T → T → T) {g src : Shape} (h0 : 0 ≤ src.cells) (hc : src.cells < g.cells) (data other : Int → T) :
    gridZip (fun a b => .ok (f a b)) g src data other = .ub := by
  have aux : ∀ n : Nat, src.cells < n → (n : Int) ≤ g.cells → (List.range n).foldlM (fun (c : Int → T) (i : Nat) => do
      let b ← deref src other i
      let a ← deref g c i
      let v ← Outcome.ok (f a b)
      store g c i v) data = Outcome.ub := by
    intro n hn hg
    induction n with
    | zero => push_cast at hn; omega
    | succ n ih =>
      rw [List.range_succ, List.foldlM_append]
      by_cases e : src.cells < n
      · rw [ih e (by push_cast at hg; omega)]
        rfl
      · have hex : ∀ k : Nat, (k : Int) ≤ src.cells → ∃ c, (List.range k).foldlM (fun (c : Int → T) (i : Nat) => do
            let b ← deref src other i
            let a ← deref g c i
            let v ← Outcome.ok (f a b)
            store g c i v) data = Outcome.ok c := by
          intro k hk
          induction k with
          | zero => exact ⟨data, rfl⟩
          | succ k ih' =>
            obtain ⟨c, hcc⟩ := ih' (by push_cast at hk; omega)
            rw [List.range_succ, List.foldlM_append, hcc]
            simp only [Outcome.bind_eq, Outcome.ok_bind, List.foldlM_cons, List.foldlM_nil, Outcome.pure_eq]
            unfold deref store
            push_cast at hk hg
            rw [if_pos (by omega), Outcome.ok_bind, if_pos (by omega), Outcome.ok_bind, if_pos (by omega), Outcome.ok_bind]
            exact ⟨_, rfl⟩
        obtain ⟨c, hcc⟩ := hex n (by omega)
        rw [hcc]
        simp only [Outcome.bind_eq, Outcome.ok_bind, List.foldlM_cons, List.foldlM_nil]
        unfold deref
        rw [if_neg (by push_cast at hn; omega)]
        rfl
  unfold gridZip
  exact aux _ (by omega) (by omega)

/-- C59: `A += B` and `A -= B` for grids of one shape combine the values at every coordinate that can be accessed, whatever
boundary condition the access goes through. -/
theorem grid_spec [Add T] [Sub T] {g : Shape} (bd : Build) {A B : Int → T} :
    ∃ P M, gridAddEq g g A B = .ok P ∧ gridSubEq g g A B = .ok M ∧
      ∀ x a b, gridAt bd g A x = .ok a → gridAt bd g B x = .ok b →
        gridAt bd g P x = .ok (a + b) ∧ gridAt bd g M x = .ok (a - b) := by
  refine ⟨_, _, gridZip_ok _ le_rfl A B, gridZip_ok _ le_rfl A B, ?_⟩
  intro x a b ha hb
  unfold gridAt deref at *
  split at ha
  · rename_i h
    rw [if_pos h] at hb
    cases ha
    cases hb
    rw [if_pos h, if_pos h]
    simp only [if_pos h, and_self]
  · cases ha

/-- C59: `A += B` for grids of vectors: componentwise in every cell if no cell of `B` is shorter than the one of `A`, otherwise the
program stops. -/
theorem grid_vec_spec [Add T] {g : Shape} (A B : Int → List T) :
    ((∀ p, 0 ≤ p → p < g.cells → (A p).length ≤ (B p).length) → ∃ P, gridAddEqVec g g A B = .ok P ∧
      ∀ p, 0 ≤ p → p < g.cells → Pointwise (fun a b => a + b) (A p) (B p) (P p)) ∧
    ((∃ p, 0 ≤ p ∧ p < g.cells ∧ (B p).length < (A p).length) → gridAddEqVec g g A B = .abort 134) := by
  have ok : ∀ p, (A p).length ≤ (B p).length → addEq (A p) (some (B p)) = .ok (List.zipWith (fun a b => a + b) (A p) (B p)) := by
    intro p h
    unfold addEq
    rw [zipEq_eq, Option.getD_some, zip_ok _ h]
  refine ⟨fun h => ⟨_, gridZip_gen le_rfl fun p h0 h1 => ok p (h p h0 h1), ?_⟩, ?_⟩
  · intro p h0 h1
    rw [if_pos ⟨h0, h1⟩]
    exact zipWith_pointwise _ (h p h0 h1)
  · intro hex
    have hex' : ∃ n : Nat, (n : Int) < g.cells ∧ (B n).length < (A n).length := by
      obtain ⟨p, h0, h1, h2⟩ := hex
      obtain ⟨n, rfl⟩ := Int.eq_ofNat_of_zero_le h0
      exact ⟨n, h1, h2⟩
    classical
    have hmin := Nat.find_spec hex'
    refine gridZip_abort le_rfl (q := (Nat.find hex' : Nat)) (v := fun p => List.zipWith (fun a b => a + b) (A p) (B p))
      (by omega) hmin.1 (fun p h0 h1 => ok p ?_) ((add_spec (A _) (B _)).2 hmin.2).2
    obtain ⟨n, rfl⟩ := Int.eq_ofNat_of_zero_le h0
    have := Nat.find_min hex' (m := n) (by simpa using h1)
    have hc : ((n : Nat) : Int) < g.cells := by
      have := hmin.1
      omega
    by_contra hl
    exact this ⟨hc, by simpa using hl⟩

/-- C59: subtracting what was added restores the grid exactly (all cells, ghosts included). -/
theorem grid_add_sub [AddCommGroup T] {g : Shape} (A B : Int → T) :
    (do let P ← gridAddEq g g A B; gridSubEq g g P B) = .ok A := by
  unfold gridAddEq gridSubEq
  rw [gridZip_ok _ le_rfl]
  simp only [Outcome.bind_eq, Outcome.ok_bind]
  rw [gridZip_ok _ le_rfl]
  congr 1
  funext p
  by_cases h : 0 ≤ p ∧ p < g.cells
  · simp only [if_pos h, add_sub_cancel_right]
  · simp only [if_neg h]

/-- C59 (where it fails): a second grid with fewer cells is read beyond its storage. -/
theorem grid_smaller_source [Add T] {g src : Shape} (h0 : 0 ≤ src.cells) (hc : src.cells < g.cells) (A B : Int → T) :
    gridAddEq g src A B = .ub := gridZip_ub _ h0 hc A B

/-- C59 (where it fails): a second grid of another shape with as many cells is added by storage position, not by coordinate:
adding a 3 × 2 grid to a 2 × 3 grid puts the value of node (1,0) of the second at (0,2) of the first. -/
theorem grid_other_shape :
    let g : Shape := ⟨2, fun _ => 0, fun j => if j = 0 then 2 else 3, fun _ => .periodic, fun _ => .periodic, 0⟩
    let h : Shape := ⟨2, fun _ => 0, fun j => if j = 0 then 3 else 2, fun _ => .periodic, fun _ => .periodic, 0⟩
    ∃ P, gridAddEq g h (fun _ => (0 : Int)) (fun p => p) = .ok P ∧
      gridAt .serial g P (fun j => if j = 0 then 0 else 2) = .ok 2 ∧
      gridAt .serial h (fun p => p) (fun j => if j = 0 then 1 else 0) = .ok 2 ∧
      gridAt .serial h (fun p => p) (fun j => if j = 0 then 0 else 2) = .ok 0 := by
  intro g h
  exact ⟨_, gridZip_ok _ (by decide) _ _, by decide, by decide, by decide⟩

/-- C59: `GRID = value` of a grid of numbers sets every cell. -/
theorem fill_spec (conv : U → T) {g : Shape} (data : Int → T) (v : U) :
    ∃ D, gridFill conv g data v = .ok D ∧ ∀ p, 0 ≤ p → p < g.cells → D p = conv v := by
  have aux : ∀ n : Nat, (n : Int) ≤ g.cells ∨ n = 0 → ∃ D, (List.range n).foldlM (fun (c : Int → T) (i : Nat) =>
      store g c i (conv v)) data = Outcome.ok D ∧ ∀ p, 0 ≤ p → p < (n : Int) → D p = conv v := by
    intro n hn
    induction n with
    | zero => exact ⟨data, rfl, fun p h0 h1 => by push_cast at h1; omega⟩
    | succ n ih =>
      have hn' : ((n : Int) + 1) ≤ g.cells := by
        rcases hn with h | h
        · push_cast at h; exact h
        · omega
      obtain ⟨D, hD, hv⟩ := ih (Or.inl (by omega))
      refine ⟨Function.update D (n : Int) (conv v), ?_, ?_⟩
      · rw [List.range_succ, List.foldlM_append, hD]
        simp only [Outcome.bind_eq, Outcome.ok_bind, List.foldlM_cons, List.foldlM_nil, Outcome.pure_eq]
        unfold store
        rw [if_pos (by omega)]
        rfl
      · intro p h0 h1
        push_cast at h1
        by_cases hp : p = n
        · subst hp; rw [Function.update_self]
        · rw [Function.update_of_ne hp, hv p h0 (by omega)]
  obtain ⟨D, hD, hv⟩ := aux g.cells.toNat (by omega)
  exact ⟨D, hD, fun p h0 h1 => hv p h0 (by omega)⟩

theorem assignVector_replicate (n : Nat) : assignVector (List.replicate (n + 1) (none : Option T)) = .ub := by
  unfold assignVector
  rw [List.replicate_succ, List.mapM_cons]
  rfl

/-- C59 (where it fails): `GRID = value` of a grid of vectors does not set the components to `value`. With 0 every cell loses all
its components, with a positive number uninitialised memory is copied, with a negative one the program stops. -/
theorem fill_vector {g : Shape} (hg : 0 < g.cells) (data : Int → List T) (v : Int) :
    (v = 0 → ∃ D, gridFillVec g data v = .ok D ∧ ∀ p, 0 ≤ p → p < g.cells → D p = []) ∧
    (0 < v → gridFillVec g data v = .ub) ∧ (v < 0 → gridFillVec g data v = .abort 134) := by
  obtain ⟨n, hn⟩ : ∃ n, g.cells.toNat = n + 1 := ⟨g.cells.toNat - 1, by omega⟩
  refine ⟨?_, ?_, ?_⟩
  · rintro rfl
    exact fill_spec (fun _ : Unit => ([] : List T)) data ()
  · intro hv
    unfold gridFillVec
    rw [hn, List.range_succ_eq_map, List.foldlM_cons]
    unfold castToVector
    rw [if_neg (by omega)]
    obtain ⟨k, hk⟩ : ∃ k, v.toNat = k + 1 := ⟨v.toNat - 1, by omega⟩
    simp only [Outcome.bind_eq, Outcome.ok_bind, hk, assignVector_replicate, Outcome.ub_bind]
  · intro hv
    unfold gridFillVec
    rw [hn, List.range_succ_eq_map, List.foldlM_cons]
    unfold castToVector
    rw [if_pos hv]
    rfl

/-- Cases of the hypotheses. -/
example : ([1, 2] : List Int).length ≤ [10, 20, 30].length := by decide
example : max [1, 20, 3] [10, 2, (3 : Int)] = .ok [10, 20, 3] ∧ dot [1, 2, 3] [4, (5 : Int)] = .ok 14 := by decide
example : addEq [1, 2] (none : Option (List Int)) = .ok [2, 4] := by decide

end MMSP.VecMath
