import Verif.Sparse
import Mathlib.Data.List.Nodup
import Mathlib.Data.List.Perm.Basic
import Mathlib.Data.List.Dedup
import Mathlib.Data.Finset.Dedup
import Mathlib.Data.Finset.Card
import Mathlib.Algebra.BigOperators.Group.Finset.Basic
import Mathlib.Order.Lattice
import Mathlib.Algebra.Order.Group.Int
import Mathlib.Algebra.Ring.Int.Defs
/-!
# Sparse cells are finite maps (C20), arithmetic is pointwise (C21), dominant field (C22)
-/

namespace MMSP.Sparse

variable {T : Type}

/-! ## Specification vocabulary -/

/-- The indices stored in a cell, in storage order. -/
def keys (c : Cell T) : List Int := c.map Prod.fst

/-- A cell never lists an index twice. -/
def Ok (c : Cell T) : Prop := (keys c).Nodup

/-! ## Helper lemmas -/

theorem search_cons (e : Int × T) (c : Cell T) (i : Int) :
    search (e :: c) i = if e.1 = i then some 0 else (search c i).map (· + 1) := by
  simp [search, List.findIdx?_cons]

theorem search_none {c : Cell T} {i : Int} : search c i = none ↔ i ∉ keys c := by
  simp [search, keys, List.findIdx?_eq_none_iff]
  constructor
  · intro h v hv; exact h i v hv rfl
  · intro h a b hab e; exact h b (e ▸ hab)

section
variable [Zero T]

theorem get_nil (i : Int) : get ([] : Cell T) i = 0 := rfl

theorem get_cons (e : Int × T) (c : Cell T) (i : Int) : get (e :: c) i = if e.1 = i then e.2 else get c i := by
  unfold get
  rw [search_cons]
  by_cases h : e.1 = i
  · simp [h]
  · simp only [h, if_false]
    cases search c i <;> simp

theorem update_nil (i : Int) (f : T → T) : update ([] : Cell T) i f = [(i, f 0)] := rfl

theorem update_cons (e : Int × T) (c : Cell T) (i : Int) (f : T → T) :
    update (e :: c) i f = if e.1 = i then (e.1, f e.2) :: c else e :: update c i f := by
  unfold update set
  rw [search_cons]
  by_cases h : e.1 = i
  · simp [h]
  · simp only [h, if_false]
    cases search c i <;> simp

theorem get_update (c : Cell T) (i j : Int) (f : T → T) :
    get (update c i f) j = if j = i then f (get c i) else get c j := by
  induction c with
  | nil =>
    rw [update_nil, get_cons]
    by_cases h : i = j
    · subst h; simp [get_nil]
    · simp [h, Ne.symm h, get_nil]
  | cons e c ih =>
    rw [update_cons]
    by_cases h : e.1 = i
    · rw [if_pos h, get_cons, get_cons, get_cons]
      by_cases h2 : j = i
      · subst h2; simp [h]
      · have : e.1 ≠ j := fun e' => h2 (e' ▸ h)
        simp [h2, this]
    · rw [if_neg h, get_cons, get_cons, get_cons, ih]
      by_cases h2 : j = i
      · subst h2; simp [h]
      · simp [h2]

theorem keys_update (c : Cell T) (i : Int) (f : T → T) :
    keys (update c i f) = if i ∈ keys c then keys c else keys c ++ [i] := by
  induction c with
  | nil => rw [update_nil]; simp [keys]
  | cons e c ih =>
    rw [update_cons]
    by_cases h : e.1 = i
    · rw [if_pos h]; simp [keys, h]
    · rw [if_neg h]
      simp only [keys, List.map_cons, List.mem_cons] at ih ⊢
      rw [ih]
      by_cases h2 : i ∈ List.map Prod.fst c
      · simp [h2]
      · simp [h2, Ne.symm h]

theorem Ok.update {c : Cell T} (h : Ok c) (i : Int) (f : T → T) : Ok (update c i f) := by
  unfold Ok
  rw [keys_update]
  by_cases hi : i ∈ keys c
  · rw [if_pos hi]; exact h
  · rw [if_neg hi]
    refine List.nodup_append.mpr ⟨h, by simp, ?_⟩
    intro a ha b hb
    simp at hb
    subst hb
    exact fun e => hi (e ▸ ha)

theorem get_of_mem {c : Cell T} (h : Ok c) {e : Int × T} (he : e ∈ c) : get c e.1 = e.2 := by
  induction c with
  | nil => simp at he
  | cons x c ih =>
    rw [get_cons]
    have hn : x.1 ∉ keys c ∧ Ok c := by simpa [Ok, keys] using h
    rcases List.mem_cons.mp he with rfl | he'
    · simp
    · have : x.1 ≠ e.1 := fun e' => hn.1 (e' ▸ List.mem_map_of_mem he')
      rw [if_neg this]
      exact ih hn.2 he'

theorem get_of_not_mem {c : Cell T} {i : Int} (h : i ∉ keys c) : get c i = 0 := by
  unfold get; rw [search_none.mpr h]

/-- Folding updates over the items of a cell: every listed index is updated once with its item. -/
theorem fold_update (y : Cell T) (hy : Ok y) (g : Int × T → T → T) (z : Cell T) :
    (∀ j, j ∉ keys y → get (y.foldl (fun z e => update z e.1 (g e)) z) j = get z j) ∧
    (∀ e ∈ y, get (y.foldl (fun z e => update z e.1 (g e)) z) e.1 = g e (get z e.1)) ∧
    keys (y.foldl (fun z e => update z e.1 (g e)) z) = keys z ++ (keys y).filter (fun j => decide (j ∉ keys z)) ∧
    (Ok z → Ok (y.foldl (fun z e => update z e.1 (g e)) z)) := by
  induction y generalizing z with
  | nil => simp [keys]
  | cons x y ih =>
    have hn : x.1 ∉ keys y ∧ Ok y := by simpa [Ok, keys] using hy
    obtain ⟨i1, i2, i3, i4⟩ := ih hn.2 (update z x.1 (g x))
    simp only [List.foldl_cons]
    refine ⟨?_, ?_, ?_, ?_⟩
    · intro j hj
      have : j ≠ x.1 ∧ j ∉ keys y := by simpa [keys] using hj
      rw [i1 j this.2, get_update, if_neg this.1]
    · intro e he
      rcases List.mem_cons.mp he with rfl | he'
      · rw [i1 _ hn.1, get_update, if_pos rfl]
      · rw [i2 e he', get_update, if_neg]
        exact fun e' => hn.1 (e' ▸ List.mem_map_of_mem he')
    · rw [i3, keys_update]
      have hk : keys (x :: y) = x.1 :: keys y := rfl
      rw [hk, List.filter_cons]
      by_cases hx : x.1 ∈ keys z
      · simp [hx]
      · simp only [hx, if_false, not_false_eq_true, decide_true, if_true, List.append_assoc, List.singleton_append]
        congr 2
        apply List.filter_congr
        intro j hj
        have : j ≠ x.1 := fun e => hn.1 (e ▸ hj)
        simp [this]
    · intro hz; exact i4 (hz.update _ _)

/-! ## C20: finite map -/

/-- Operations on one cell. -/
inductive Op (T : Type) where
  /-- `c.set(i) = v` -/
  | put (i : Int) (v : T)
  /-- `c.set(i)` without using the value, or `c.set(i) op= …` -/
  | modify (i : Int) (f : T → T)
  /-- `c[i]` -/
  | read (i : Int)

/-- Running an operation: new contents and the value read. -/
def Op.run (c : Cell T) : Op T → Cell T × Option T
  | .put i v => (update c i fun _ => v, none)
  | .modify i f => (update c i f, none)
  | .read i => (c, some (get c i))

/-- The index an operation writes. -/
def Op.target : Op T → Option Int
  | .put i _ => some i
  | .modify i _ => some i
  | .read _ => none

/-- Specification: the total map after an operation. -/
def Op.spec (s : Int → T) : Op T → Int → T
  | .put i v => Function.update s i v
  | .modify i f => Function.update s i (f (s i))
  | .read _ => s

/-- Specification: indices in the order they were first written. -/
def firstWritten (l : List Int) : Op T → List Int
  | .put i _ => if i ∈ l then l else l ++ [i]
  | .modify i _ => if i ∈ l then l else l ++ [i]
  | .read _ => l

/-- Contents after a history. -/
def after (os : List (Op T)) : Cell T := os.foldl (fun c o => (o.run c).1) []

/-- After any history the cell means the map that results from the writes, lists exactly the written indices in the order
of their first write, each once. -/
theorem history_correct (os : List (Op T)) :
    (∀ i, get (after os) i = os.foldl Op.spec (fun _ => 0) i) ∧
    keys (after os) = os.foldl firstWritten [] ∧ Ok (after os) ∧
    (after os).length = ((os.filterMap Op.target).toFinset).card ∧
    ∀ i, i ∈ keys (after os) ↔ i ∈ os.filterMap Op.target := by
  have main : (∀ i, get (after os) i = os.foldl Op.spec (fun _ => 0) i) ∧
    keys (after os) = os.foldl firstWritten [] ∧ Ok (after os) ∧
    ∀ i, i ∈ keys (after os) ↔ i ∈ os.filterMap Op.target := by
    induction os using List.reverseRecOn with
    | nil => simp [after, get_nil, keys, Ok]
    | append_singleton os o ih =>
      obtain ⟨h1, h2, h3, h4⟩ := ih
      have ha : after (os ++ [o]) = (o.run (after os)).1 := by simp [after]
      simp only [List.foldl_append, List.foldl_cons, List.foldl_nil, List.filterMap_append]
      rw [ha]
      cases o with
      | put i v =>
        refine ⟨fun j => ?_, ?_, h3.update i (fun _ => v), fun j => ?_⟩
        · simp only [Op.run, get_update, Op.spec, Function.update_apply, h1]
        · simp only [Op.run, keys_update, firstWritten, h2]
        · simp only [Op.run, keys_update, Op.target, List.mem_append, List.filterMap_cons, List.filterMap_nil, ← h4]
          split_ifs with h <;> simp
          rintro rfl; exact h
      | modify i f =>
        refine ⟨fun j => ?_, ?_, h3.update i f, fun j => ?_⟩
        · simp only [Op.run, get_update, Op.spec, Function.update_apply, h1]
        · simp only [Op.run, keys_update, firstWritten, h2]
        · simp only [Op.run, keys_update, Op.target, List.mem_append, List.filterMap_cons, List.filterMap_nil, ← h4]
          split_ifs with h <;> simp
          rintro rfl; exact h
      | read i =>
        refine ⟨h1, h2, h3, fun j => ?_⟩
        simp [Op.run, Op.target, h4]
  obtain ⟨h1, h2, h3, h4⟩ := main
  refine ⟨h1, h2, h3, ?_, h4⟩
  have : (os.filterMap Op.target).toFinset = (keys (after os)).toFinset := by
    ext i; simp only [List.mem_toFinset, h4]
  rw [this, List.toFinset_card_of_nodup h3]
  simp [keys]

/-- A read anywhere in a history returns the value of the most recent write to that index (0 if there was none). -/
theorem read_correct (os : List (Op T)) (i : Int) :
    ((Op.read i).run (after os)).2 = some (os.foldl Op.spec (fun _ => 0) i) := by
  simp [Op.run, (history_correct os).1]

/-- `index(i)` and `value(i)` enumerate the map: below the length they give a written index and its value. -/
theorem enumerate_correct (os : List (Op T)) (k : Nat) (hk : k < (after os).length) :
    ∃ i v, index (after os) k = .ok i ∧ value (after os) k = .ok v ∧ (os.foldl firstWritten [])[k]? = some i ∧
      v = os.foldl Op.spec (fun _ => 0) i := by
  obtain ⟨h1, h2, h3, -, -⟩ := history_correct os
  refine ⟨(after os)[k].1, (after os)[k].2, ?_, ?_, ?_, ?_⟩
  · simp [index, hk]
  · simp [value, hk]
  · rw [← h2]; simp [keys, hk]
  · rw [← h1, get_of_mem h3 (List.getElem_mem hk)]

end

/-- C20: `index(i)` and `value(i)` return exactly for positions below the length; beyond it the assertion fails, and negative positions read memory before the items. -/
theorem enumerate_returns (c : Cell T) (i : Int) :
    ((∃ v, index c i = .ok v) ↔ 0 ≤ i ∧ i < c.length) ∧ ((∃ v, value c i = .ok v) ↔ 0 ≤ i ∧ i < c.length) ∧
      (c.length ≤ i → index c i = .abort 134 ∧ value c i = .abort 134) ∧ (i < 0 → index c i = .ub ∧ value c i = .ub) := by
  unfold index value
  by_cases h1 : i < c.length
  · by_cases h0 : 0 ≤ i
    · simp [h1, h0]
    · simp [h1, h0]
  · simp [h1]; omega

/-- A history with repeated and interleaved writes. -/
def sampleHist : List (Op Int) := [.put 7 3, .put (-2) 5, .modify 7 (· + 1), .read 9, .modify 4 id, .put (-2) 6]

example : after sampleHist = [(7, 4), (-2, 6), (4, 0)] := by decide
example : Ok (after sampleHist) := (history_correct sampleHist).2.2.1

/-! ## C21: pointwise arithmetic -/

/-- `x + y`: the sum at every index; indices of `x` first, then the new ones of `y`. -/
theorem add_correct [AddZeroClass T] {x y : Cell T} (hx : Ok x) (hy : Ok y) :
    (∀ i, get (add x y) i = get x i + get y i) ∧ Ok (add x y) ∧
      keys (add x y) = keys x ++ (keys y).filter fun j => decide (j ∉ keys x) := by
  obtain ⟨a1, a2, a3, a4⟩ := fold_update x hx (fun e v => v + e.2) []
  obtain ⟨b1, b2, b3, b4⟩ := fold_update y hy (fun e v => v + e.2) (x.foldl (fun z e => update z e.1 fun v => v + e.2) [])
  have hz : ∀ i, get (x.foldl (fun z e => update z e.1 fun v => v + e.2) []) i = get x i := by
    intro i
    by_cases hi : i ∈ keys x
    · obtain ⟨e, he, rfl⟩ := List.mem_map.mp hi
      rw [a2 e he, get_nil, zero_add, get_of_mem hx he]
    · rw [a1 i hi, get_nil, get_of_not_mem hi]
  have hk : keys (x.foldl (fun z e => update z e.1 fun v => v + e.2) []) = keys x := by
    rw [a3]; simp [keys]
  refine ⟨fun i => ?_, b4 (a4 (by simp [Ok, keys])), ?_⟩
  · by_cases hi : i ∈ keys y
    · obtain ⟨e, he, rfl⟩ := List.mem_map.mp hi
      exact (b2 e he).trans (by rw [hz, get_of_mem hy he])
    · exact (b1 i hi).trans (by rw [hz, get_of_not_mem hi, add_zero])
  · exact b3.trans (by rw [hk])

/-- `x += y`. -/
theorem addEq_correct [AddZeroClass T] {x y : Cell T} (hx : Ok x) (hy : Ok y) :
    (∀ i, get (addEq x y) i = get x i + get y i) ∧ Ok (addEq x y) ∧
      keys (addEq x y) = keys x ++ (keys y).filter fun j => decide (j ∉ keys x) := by
  obtain ⟨b1, b2, b3, b4⟩ := fold_update y hy (fun e v => v + e.2) x
  refine ⟨fun i => ?_, b4 hx, b3⟩
  by_cases hi : i ∈ keys y
  · obtain ⟨e, he, rfl⟩ := List.mem_map.mp hi
    exact (b2 e he).trans (by rw [get_of_mem hy he])
  · exact (b1 i hi).trans (by rw [get_of_not_mem hi, add_zero])

/-- `x -= y`. -/
theorem subEq_correct [Zero T] [Sub T] (hsub : ∀ a : T, a - 0 = a) {x y : Cell T} (hx : Ok x) (hy : Ok y) :
    (∀ i, get (subEq x y) i = get x i - get y i) ∧ Ok (subEq x y) ∧
      keys (subEq x y) = keys x ++ (keys y).filter fun j => decide (j ∉ keys x) := by
  obtain ⟨b1, b2, b3, b4⟩ := fold_update y hy (fun e v => v - e.2) x
  refine ⟨fun i => ?_, b4 hx, b3⟩
  by_cases hi : i ∈ keys y
  · obtain ⟨e, he, rfl⟩ := List.mem_map.mp hi
    exact (b2 e he).trans (by rw [get_of_mem hy he])
  · exact (b1 i hi).trans (by rw [get_of_not_mem hi, hsub])

/-- `x - y`. -/
theorem sub_correct [AddZeroClass T] [Sub T] (hsub : ∀ a : T, a - 0 = a) {x y : Cell T} (hx : Ok x) (hy : Ok y) :
    (∀ i, get (sub x y) i = get x i - get y i) ∧ Ok (sub x y) ∧
      keys (sub x y) = keys x ++ (keys y).filter fun j => decide (j ∉ keys x) := by
  obtain ⟨a1, a2, a3, a4⟩ := fold_update x hx (fun e v => v + e.2) []
  obtain ⟨b1, b2, b3, b4⟩ := fold_update y hy (fun e v => v - e.2) (x.foldl (fun z e => update z e.1 fun v => v + e.2) [])
  have hz : ∀ i, get (x.foldl (fun z e => update z e.1 fun v => v + e.2) []) i = get x i := by
    intro i
    by_cases hi : i ∈ keys x
    · obtain ⟨e, he, rfl⟩ := List.mem_map.mp hi
      rw [a2 e he, get_nil, zero_add, get_of_mem hx he]
    · rw [a1 i hi, get_nil, get_of_not_mem hi]
  have hk : keys (x.foldl (fun z e => update z e.1 fun v => v + e.2) []) = keys x := by
    rw [a3]; simp [keys]
  refine ⟨fun i => ?_, b4 (a4 (by simp [Ok, keys])), ?_⟩
  · by_cases hi : i ∈ keys y
    · obtain ⟨e, he, rfl⟩ := List.mem_map.mp hi
      exact (b2 e he).trans (by rw [hz, get_of_mem hy he])
    · exact (b1 i hi).trans (by rw [hz, get_of_not_mem hi, hsub])
  · exact b3.trans (by rw [hk])

/-- `value * x` (and `x * value`, which calls it). -/
theorem smul_correct [MulZeroClass T] (v : T) {x : Cell T} (hx : Ok x) :
    (∀ i, get (smul v x) i = v * get x i) ∧ Ok (smul v x) ∧ keys (smul v x) = keys x := by
  obtain ⟨a1, a2, a3, a4⟩ := fold_update x hx (fun e _ => v * e.2) []
  refine ⟨fun i => ?_, a4 (by simp [Ok, keys]), a3.trans (by simp [keys])⟩
  by_cases hi : i ∈ keys x
  · obtain ⟨e, he, rfl⟩ := List.mem_map.mp hi
    exact (a2 e he).trans (by rw [get_of_mem hx he])
  · exact (a1 i hi).trans (by rw [get_nil, get_of_not_mem hi, mul_zero])

/-- Loops that visit the items of the cell they change, position by position. -/
theorem self_fold [Zero T] (g : T → T → T) {x : Cell T} (hx : Ok x) :
    (List.range x.length).foldl (fun x i =>
      match x[i]? with
      | some e => update x e.1 fun v => g v e.2
      | none => x) x = x.map fun e => (e.1, g e.2 e.2) := by
  have hup : ∀ (p q : Cell T) (e : Int × T) (f : T → T), e.1 ∉ keys p → update (p ++ e :: q) e.1 f = p ++ (e.1, f e.2) :: q := by
    intro p q e f hp
    induction p with
    | nil => simp [update_cons]
    | cons a p ih =>
      have : e.1 ≠ a.1 ∧ e.1 ∉ keys p := by simpa [keys] using hp
      simp only [List.cons_append]
      rw [update_cons, if_neg (Ne.symm this.1), ih this.2]
  have main : ∀ n, n ≤ x.length → (List.range n).foldl (fun x i =>
      match x[i]? with
      | some e => update x e.1 fun v => g v e.2
      | none => x) x = ((x.take n).map fun e => (e.1, g e.2 e.2)) ++ x.drop n := by
    intro n hn
    induction n with
    | zero => simp
    | succ n ih =>
      rw [List.range_succ, List.foldl_append, ih (by omega)]
      have hlt : n < x.length := by omega
      have hget : (((x.take n).map fun e => (e.1, g e.2 e.2)) ++ x.drop n)[n]? = some x[n] := by
        rw [List.getElem?_append_right (by simp)]
        simp [Nat.min_eq_left (Nat.le_of_lt hlt), List.getElem?_drop, hlt]
      simp only [List.foldl_cons, List.foldl_nil, hget]
      have hk : x[n].1 ∉ keys ((x.take n).map fun e => (e.1, g e.2 e.2)) := by
        have hnd : (keys (x.take n ++ x[n] :: x.drop (n + 1))).Nodup := by
          have : x.take n ++ x[n] :: x.drop (n + 1) = x := by
            rw [← List.drop_eq_getElem_cons hlt, List.take_append_drop]
          rw [this]; exact hx
        simp only [keys, List.map_append, List.map_cons] at hnd
        have := (List.nodup_append.mp hnd).2.2
        intro hm
        simp only [keys, List.map_map] at hm
        exact this _ (by simpa [Function.comp_def] using hm) _ (List.mem_cons_self ..) rfl
      rw [List.drop_eq_getElem_cons hlt, hup _ _ _ _ hk, List.take_succ_eq_append_getElem hlt]
      simp only [List.map_append, List.map_cons, List.map_nil, List.append_assoc, List.singleton_append]
  have := main x.length (Nat.le_refl _)
  simpa using this

/-- `x *= value`. -/
theorem mulEq_correct [MulZeroClass T] (w : T) {x : Cell T} (hx : Ok x) :
    (∀ i, get (mulEq x w) i = get x i * w) ∧ Ok (mulEq x w) ∧ keys (mulEq x w) = keys x := by
  have h : mulEq x w = x.map fun e => (e.1, e.2 * w) := self_fold (fun v _ => v * w) hx
  have hk : keys (mulEq x w) = keys x := by simp [h, keys, Function.comp_def]
  refine ⟨fun i => ?_, by unfold Ok; rw [hk]; exact hx, hk⟩
  rw [h]
  clear h hk hx
  induction x with
  | nil => simp [get_nil]
  | cons e x ih =>
    rw [List.map_cons, get_cons, get_cons, ih]
    split_ifs <;> rfl

/-- `x += x` doubles every value. -/
theorem addEqSelf_correct [AddZeroClass T] {x : Cell T} (hx : Ok x) :
    (∀ i, get (addEqSelf x) i = get x i + get x i) ∧ keys (addEqSelf x) = keys x := by
  have h : addEqSelf x = x.map fun e => (e.1, e.2 + e.2) := self_fold (fun v w => v + w) hx
  refine ⟨fun i => ?_, by simp [h, keys, Function.comp_def]⟩
  rw [h]
  clear h hx
  induction x with
  | nil => simp [get_nil]
  | cons e x ih =>
    rw [List.map_cons, get_cons, get_cons, ih]
    split_ifs <;> rfl

/-- `x -= x` makes every value 0 and keeps the indices. -/
theorem subEqSelf_correct [AddGroup T] {x : Cell T} (hx : Ok x) :
    (∀ i, get (subEqSelf x) i = 0) ∧ keys (subEqSelf x) = keys x := by
  have h : subEqSelf x = x.map fun e => (e.1, e.2 - e.2) := self_fold (fun v w => v - w) hx
  refine ⟨fun i => ?_, by simp [h, keys, Function.comp_def]⟩
  rw [h]
  clear h hx
  induction x with
  | nil => simp [get_nil]
  | cons e x ih =>
    rw [List.map_cons, get_cons, ih]
    split_ifs <;> simp

theorem maxOf_eq [LinearOrder T] (x y : T) : maxOf x y = Max.max x y := by
  unfold maxOf
  rcases le_total x y with h | h
  · rw [max_eq_right h, if_neg (not_lt.mpr h)]
  · rw [max_eq_left h]
    split_ifs with h2
    · rfl
    · exact le_antisymm h (not_lt.mp h2)

theorem minOf_eq [LinearOrder T] (x y : T) : minOf x y = Min.min x y := by
  unfold minOf
  rcases le_total x y with h | h
  · rw [min_eq_left h]
    split_ifs with h2
    · rfl
    · exact le_antisymm (not_lt.mp h2) h
  · rw [min_eq_right h, if_neg (not_lt.mpr h)]

/-- Shared by `max` and `min`. -/
theorem pointwise_two [Zero T] (op : T → T → T) (hc : ∀ a b, op a b = op b a) (h0 : op 0 0 = 0) {x y : Cell T}
    (hx : Ok x) (hy : Ok y) :
    let z := x.foldl (fun z e => update z e.1 fun _ => op e.2 (get y e.1)) []
    let r := y.foldl (fun z e => update z e.1 fun _ => op e.2 (get x e.1)) z
    (∀ i, get r i = op (get x i) (get y i)) ∧ Ok r ∧ keys r = keys x ++ (keys y).filter fun j => decide (j ∉ keys x) := by
  intro z r
  obtain ⟨a1, a2, a3, a4⟩ := fold_update x hx (fun e _ => op e.2 (get y e.1)) []
  obtain ⟨b1, b2, b3, b4⟩ := fold_update y hy (fun e _ => op e.2 (get x e.1)) z
  have hk : keys z = keys x := a3.trans (by simp [keys])
  refine ⟨fun i => ?_, b4 (a4 (by simp [Ok, keys])), b3.trans (by rw [hk])⟩
  by_cases hi : i ∈ keys y
  · obtain ⟨e, he, rfl⟩ := List.mem_map.mp hi
    exact (b2 e he).trans (by rw [get_of_mem hy he, hc])
  · refine (b1 i hi).trans ?_
    by_cases hi' : i ∈ keys x
    · obtain ⟨e, he, rfl⟩ := List.mem_map.mp hi'
      exact (a2 e he).trans (by rw [get_of_mem hx he])
    · exact (a1 i hi').trans (by rw [get_nil, get_of_not_mem hi, get_of_not_mem hi', h0])

/-- `max(x, y)` is the pointwise maximum of the maps (absent indices count as 0). -/
theorem max_correct [Zero T] [LinearOrder T] {x y : Cell T} (hx : Ok x) (hy : Ok y) :
    (∀ i, get (max x y) i = Max.max (get x i) (get y i)) ∧ Ok (max x y) ∧
      keys (max x y) = keys x ++ (keys y).filter fun j => decide (j ∉ keys x) := by
  have := pointwise_two (T := T) maxOf (fun a b => by rw [maxOf_eq, maxOf_eq, max_comm]) (by simp [maxOf]) hx hy
  refine ⟨fun i => ?_, this.2⟩
  rw [← maxOf_eq]; exact this.1 i

/-- `min(x, y)` is the pointwise minimum of the maps. -/
theorem min_correct [Zero T] [LinearOrder T] {x y : Cell T} (hx : Ok x) (hy : Ok y) :
    (∀ i, get (min x y) i = Min.min (get x i) (get y i)) ∧ Ok (min x y) ∧
      keys (min x y) = keys x ++ (keys y).filter fun j => decide (j ∉ keys x) := by
  have := pointwise_two (T := T) minOf (fun a b => by rw [minOf_eq, minOf_eq, min_comm]) (by simp [minOf]) hx hy
  refine ⟨fun i => ?_, this.2⟩
  rw [← minOf_eq]; exact this.1 i

theorem eqFind_spec [DecidableEq T] [Zero T] (e : Int × T) (b : Cell T) :
    eqFind e b = (decide (e.1 ∈ keys b), decide (e.1 ∈ keys b) && decide (e.2 = get b e.1)) := by
  induction b with
  | nil => simp [eqFind, keys]
  | cons f b ih =>
    rw [eqFind, get_cons]
    by_cases h : e.1 = f.1
    · simp [h, keys]
    · have hm : e.1 ∈ keys (f :: b) ↔ e.1 ∈ keys b := by simp [keys, h]
      rw [if_neg h, if_neg (Ne.symm h), ih, decide_eq_decide.mpr hm]

/-- `a == b` iff both list the same indices with equal values, in any order. -/
theorem eq_correct [DecidableEq T] {a b : Cell T} (ha : Ok a) (hb : Ok b) : eq a b = true ↔ a.Perm b := by
  by_cases hT : Nonempty T
  swap
  · have : ∀ c : Cell T, c = [] := by
      intro c; cases c with
      | nil => rfl
      | cons e _ => exact absurd ⟨e.2⟩ hT
    rw [this a, this b]; simp [eq]
  let _ : Zero T := ⟨hT.some⟩
  have hcrit : eq a b = true ↔ a.length = b.length ∧ ∀ e ∈ a, e ∈ b := by
    unfold eq
    by_cases hl : a.length = b.length
    · rw [if_neg (by simp [hl]), List.all_eq_true]
      simp only [hl, true_and]
      constructor
      · intro h e he
        have := h e he
        rw [eqFind_spec] at this
        simp at this
        obtain ⟨h1, h2⟩ := this
        obtain ⟨f, hf, hfe⟩ := List.mem_map.mp h1
        have h3 := (h2.resolve_left (fun h => h h1)).2
        have hg := get_of_mem hb hf
        rw [hfe, ← h3] at hg
        have : e = f := Prod.ext hfe.symm hg
        rw [this]; exact hf
      · intro h e he
        have hm := h e he
        rw [eqFind_spec]
        have h1 : e.1 ∈ keys b := List.mem_map_of_mem hm
        simp [h1, get_of_mem hb hm]
    · simp [hl]
  rw [hcrit]
  have hna : a.Nodup := List.Nodup.of_map _ ha
  have hnb : b.Nodup := List.Nodup.of_map _ hb
  constructor
  · rintro ⟨hl, hs⟩
    exact (List.subperm_of_subset hna hs).perm_of_length_le (by omega)
  · intro hp
    exact ⟨hp.length_eq, fun e he => hp.mem_iff.mp he⟩

/-! ### Examples -/

def sampleX : Cell Int := [(3, 5), (-1, 2)]
def sampleY : Cell Int := [(-1, -7), (8, 4)]
example : Ok sampleX ∧ Ok sampleY := by unfold Ok; decide
example : max sampleX sampleY = [(3, 5), (-1, 2), (8, 4)] ∧ min sampleX sampleY = [(3, 0), (-1, -7), (8, 0)] := by decide
example : add sampleX sampleY = [(3, 5), (-1, -5), (8, 4)] ∧ sub sampleX sampleY = [(3, 5), (-1, 9), (8, -4)] := by decide
example : eq sampleX [(-1, 2), (3, 5)] = true ∧ eq sampleX sampleY = false := by decide

/-! ## C22: dominant field -/

/-- If some stored value exceeds the sentinel, `grain_id` is the index of a maximal value, the earliest stored one. The
index must not be `-1` modulo 2^32 (the assertion). -/
theorem grainId_correct [LinearOrder T] (negOne : T) (c : Cell T) (h : ∃ e ∈ c, negOne < e.2) :
    ∃ k, ∃ hk : k < c.length, (∀ e ∈ c, e.2 ≤ c[k].2) ∧ (∀ j (hj : j < k), c[j].2 < c[k].2) ∧
      (0 ≤ c[k].1 ∧ c[k].1 < 2 ^ 32 - 1 → grainId negOne c = .ok c[k].1.toNat) ∧
      (c[k].1 = -1 → grainId negOne c = .abort 134) := by
  have main : ∀ c : Cell T, 
      (c.foldl (fun (acc : Nat × T) e => if e.2 > acc.2 then ((e.1 % 2 ^ 32).toNat, e.2) else acc) (0, negOne) = (0, negOne) ∧
        ∀ e ∈ c, e.2 ≤ negOne) ∨
      ∃ k, ∃ hk : k < c.length, (∀ e ∈ c, e.2 ≤ c[k].2) ∧ (∀ j (hj : j < k), c[j].2 < c[k].2) ∧ negOne < c[k].2 ∧
        c.foldl (fun (acc : Nat × T) e => if e.2 > acc.2 then ((e.1 % 2 ^ 32).toNat, e.2) else acc) (0, negOne) =
          ((c[k].1 % 2 ^ 32).toNat, c[k].2) := by
    intro c
    induction c using List.reverseRecOn with
    | nil => left; simp
    | append_singleton c e ih =>
      rw [List.foldl_append]
      rcases ih with ⟨h1, h2⟩ | ⟨k, hk, h1, h2, h3, h4⟩
      · rw [h1]
        by_cases he : e.2 > negOne
        · right
          refine ⟨c.length, by simp, ?_, ?_, ?_, ?_⟩
          · intro f hf
            simp only [List.mem_append, List.mem_singleton] at hf
            rcases hf with hf | rfl
            · simpa using le_of_lt (lt_of_le_of_lt (h2 f hf) he)
            · simp
          · intro j hj
            simp only [List.getElem_append_left hj, List.getElem_append_right (Nat.le_refl _), Nat.sub_self,
              List.getElem_singleton]
            exact lt_of_le_of_lt (h2 _ (List.getElem_mem hj)) he
          · simpa using he
          · simp [he]
        · left
          refine ⟨by simp [he], ?_⟩
          intro f hf
          simp only [List.mem_append, List.mem_singleton] at hf
          rcases hf with hf | rfl
          · exact h2 f hf
          · exact not_lt.mp he
      · rw [h4]
        right
        by_cases he : e.2 > c[k].2
        · refine ⟨c.length, by simp, ?_, ?_, ?_, ?_⟩
          · intro f hf
            simp only [List.mem_append, List.mem_singleton] at hf
            rcases hf with hf | rfl
            · simpa using le_of_lt (lt_of_le_of_lt (h1 f hf) he)
            · simp
          · intro j hj
            simp only [List.getElem_append_left hj, List.getElem_append_right (Nat.le_refl _), Nat.sub_self,
              List.getElem_singleton]
            exact lt_of_le_of_lt (h1 _ (List.getElem_mem hj)) he
          · simpa using lt_trans h3 he
          · simp [he]
        · refine ⟨k, by simp; omega, ?_, ?_, ?_, ?_⟩
          · intro f hf
            simp only [List.mem_append, List.mem_singleton] at hf
            rw [List.getElem_append_left hk]
            rcases hf with hf | rfl
            · exact h1 f hf
            · exact not_lt.mp he
          · intro j hj
            rw [List.getElem_append_left hk, List.getElem_append_left (by omega)]
            exact h2 j hj
          · rw [List.getElem_append_left hk]; exact h3
          · rw [List.getElem_append_left hk]; simp [he]
  rcases main c with ⟨-, h2⟩ | ⟨k, hk, h1, h2, h3, h4⟩
  · obtain ⟨e, he, hlt⟩ := h
    exact absurd (h2 e he) (not_le.mpr hlt)
  · refine ⟨k, hk, h1, h2, ?_, ?_⟩
    · rintro ⟨hz0, hz1⟩
      unfold grainId
      simp only [h4]
      have : c[k].1 % 2 ^ 32 = c[k].1 := Int.emod_eq_of_lt hz0 (by omega)
      rw [this, if_pos (by omega)]
    · intro hm
      unfold grainId
      simp only [h4, hm]
      rfl

/-- An empty cell, or one whose values are all at most the sentinel, gives 0. -/
theorem grainId_none [LinearOrder T] (negOne : T) (c : Cell T) (h : ∀ e ∈ c, e.2 ≤ negOne) : grainId negOne c = .ok 0 := by
  have : c.foldl (fun (acc : Nat × T) e => if e.2 > acc.2 then ((e.1 % 2 ^ 32).toNat, e.2) else acc) (0, negOne) =
      (0, negOne) := by
    induction c with
    | nil => rfl
    | cons e c ih =>
      rw [List.foldl_cons, if_neg (not_lt.mpr (h e (List.mem_cons_self ..)))]
      exact ih fun f hf => h f (List.mem_cons_of_mem _ hf)
  unfold grainId
  simp only [this]
  rfl

/-- The sentinel matters: with all values at most -1 the answer is 0 although index 0 is not stored. -/
theorem grainId_sentinel : grainId (-1 : Int) [(5, -1)] = .ok 0 ∧ (0 : Int) ∉ keys [(5, (-1 : Int))] := by decide

example : ∃ e ∈ ([(4, 2), (9, 7), (1, 7)] : Cell Int), (-1 : Int) < e.2 := by decide
example : grainId (-1 : Int) [(4, 2), (9, 7), (1, 7)] = .ok 9 := by decide

/-- `getMagPhi` is the square root of the sum, over the stored indices, of the squared values. -/
theorem getMagPhi_correct {D : Type} [Zero T] [CommSemiring D] (sqrt : D → D) (conv : T → D) {c : Cell T} (hc : Ok c) :
    getMagPhi sqrt conv c = sqrt (∑ i ∈ (keys c).toFinset, conv (get c i) * conv (get c i)) := by
  unfold getMagPhi
  congr 1
  have h1 : ∀ (c : Cell T) (s : D), c.foldl (fun sum e => sum + conv e.2 * conv e.2) s =
      s + (c.map fun e => conv e.2 * conv e.2).sum := by
    intro c
    induction c with
    | nil => simp
    | cons e c ih => intro s; rw [List.foldl_cons, ih]; simp [add_assoc]
  rw [h1, zero_add, List.sum_toFinset _ hc, keys, List.map_map]
  congr 1
  apply List.map_congr_left
  intro e he
  simp [get_of_mem hc he]

end MMSP.Sparse
