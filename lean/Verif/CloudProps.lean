import Verif.Cloud
import Verif.ConvertProps
import Verif.StencilProps
import Verif.IndexProps
import Mathlib.Algebra.Order.Field.Basic
import Mathlib.Data.Rat.Floor
/-!
# Point clouds: which points are written
-/

namespace MMSP.Cloud

open Image (onContour)

variable {α : Type} [Field α] [LinearOrder α]

/-! ## Specification -/

/-- The value is within the relative tolerance of a level that is not zero. -/
def Near (tol : α) (levels : List α) (v : α) : Prop := ∃ l ∈ levels, l ≠ 0 ∧ |v - l| < tol * |l|

instance (tol : α) (levels : List α) (v : α) : Decidable (Near tol levels v) := by unfold Near; infer_instance

/-- The place of a node: spacing times coordinate for the axes that exist, zero for the others. -/
def Place (g : Shape) (dx : Nat → α) (x : Nat → Int) : List α := (List.range 3).map fun d => if d < g.dim then dx d * (x d : α) else 0

/-- The numbers of the nodes with the property, in order. -/
def chosen (g : Shape) (p : Int → Prop) [DecidablePred p] : List Int := ((List.range g.nodes.toNat).map fun n : Nat => (n : Int)).filter fun n => decide (p n)

/-! ## The loop -/

variable [IsStrictOrderedRing α]

theorem onContour_iff (tol v l : α) : onContour tol v l ↔ l ≠ 0 ∧ |v - l| < tol * |l| := by
  unfold onContour
  constructor
  · rintro ⟨h0, h⟩; exact ⟨h0, (div_lt_iff₀ (abs_pos.2 h0)).1 h⟩
  · rintro ⟨h0, h⟩; exact ⟨h0, (div_lt_iff₀ (abs_pos.2 h0)).2 h⟩

theorem included_eq (tol v : α) (levels : List α) : included tol (.ok v) levels = .ok (decide (Near tol levels v)) := by
  induction levels with
  | nil => simp [included, Near]
  | cons l ls ih =>
    rw [included, Outcome.ok_bind]
    by_cases h : onContour tol v l
    · rw [if_pos h]
      congr 1
      exact (decide_eq_true ⟨l, by simp, (onContour_iff tol v l).1 h⟩).symm
    · rw [if_neg h, ih]
      congr 1
      apply decide_eq_decide.2
      constructor
      · rintro ⟨k, hk, hh⟩; exact ⟨k, List.mem_cons_of_mem _ hk, hh⟩
      · rintro ⟨k, hk, hh⟩
        rcases List.mem_cons.1 hk with rfl | hk
        · exact absurd ((onContour_iff tol v k).2 hh) h
        · exact ⟨k, hk, hh⟩

/-- The rows, if all cells have a value and all normals can be computed. -/
theorem cloud_eq {T : Type} {g : Shape} (h0 : g.ghosts = 0) (dx : Nat → α) (levels : List α) (tol : α) {other : T → Outcome Unit} {value : T → Outcome α}
    {normals : (Nat → Int) → Outcome (List α)} {data : Int → T} {φ : Int → α} {ν : Int → List α} (hother : ∀ n : Nat, n < g.nodes.toNat → other (data n) = .ok ())
    (hv : ∀ n : Nat, n < g.nodes.toNat → levels ≠ [] → value (data n) = .ok (φ n))
    (hn : ∀ n : Nat, n < g.nodes.toNat → Near tol levels (φ n) → normals (g.position n) = .ok (ν n)) :
    cloud g dx levels tol other value normals data =
      .ok ((chosen g fun n => Near tol levels (φ n)).map fun n => Place g dx (g.position n) ++ ν n) := by
  have key : ∀ (L : List Nat) (rows : List (List α)), (∀ n ∈ L, n < g.nodes.toNat) →
      L.foldlM (fun rows (n : Nat) =>
        (deref g data (g.atNode .serial n)).bind fun c => (other c).bind fun _ => (included tol (value c) levels).bind fun b =>
        if b then
          let x := g.position n
          (normals x).bind fun norm => .ok (rows ++ [columns g.dim (fun d => dx d * (x d : α)) ++ norm])
        else .ok rows) rows =
      Outcome.ok (rows ++ ((L.map fun n : Nat => (n : Int)).filter fun n => decide (Near tol levels (φ n))).map fun n => Place g dx (g.position n) ++ ν n) := by
    intro L
    induction L with
    | nil => intro rows _; simp [pure]
    | cons n L ih =>
      intro rows hL
      have hlt := hL n (by simp)
      have hd : deref g data (g.atNode .serial n) = .ok (data n) := Convert.deref_ok h0 data hlt
      have hinc : included tol (value (data n)) levels = .ok (decide (Near tol levels (φ n))) := by
        by_cases he : levels = []
        · subst he; simp [included, Near]
        · rw [hv n hlt he, included_eq]
      rw [List.foldlM_cons, hd, Outcome.ok_bind, hother n hlt, Outcome.ok_bind, hinc, Outcome.ok_bind, Outcome.bind_eq]
      by_cases hp : Near tol levels (φ n)
      · rw [if_pos (decide_eq_true hp)]
        dsimp only
        rw [hn n hlt hp, Outcome.ok_bind, Outcome.ok_bind, ih _ fun k hk => hL k (by simp [hk]), List.map_cons, List.filter_cons_of_pos (by simpa using hp)]
        simp [columns, Place]
      · rw [if_neg (by simpa using hp), Outcome.ok_bind, ih _ fun k hk => hL k (by simp [hk]), List.map_cons, List.filter_cons_of_neg (by simpa using hp)]
  have := key (List.range g.nodes.toNat) [] fun n hn => List.mem_range.1 hn
  rw [cloud, this]; rfl

theorem mem_chosen {g : Shape} {p : Int → Prop} [DecidablePred p] {n : Int} : n ∈ chosen g p ↔ 0 ≤ n ∧ n < g.nodes ∧ p n := by
  simp only [chosen, List.mem_filter, List.mem_map, List.mem_range, decide_eq_true_eq]
  constructor
  · rintro ⟨⟨k, hk, rfl⟩, hp⟩; exact ⟨by omega, by omega, hp⟩
  · rintro ⟨h0, h1, hp⟩; exact ⟨⟨n.toNat, by omega, by omega⟩, hp⟩

/-! ## The theorems -/

/-- What the contours of a scalar grid refer to: the values, or their magnitudes with `--mag`. -/
def scalarView (mode : Nat) (v : α) : α := if mode = 1 then |v| else v

/-- **C84.** Scalar grids without normals: one row for every node whose value is near a level, in the order of the nodes, and no other rows. -/
theorem scalars_spec {g : Shape} (h0 : g.ghosts = 0) (dx : Nat → α) (mode : Nat) (levels : List α) (tol : α) (junk : List α) (data : Int → α) :
    scalars g dx mode false levels tol junk data = .ok ((chosen g fun n => Near tol levels (scalarView mode (data n))).map fun n => Place g dx (g.position n)) := by
  rw [scalars, cloud_eq (φ := fun n => scalarView mode (data n)) (ν := fun _ => []) h0 dx levels tol (fun _ _ => rfl) (fun _ _ _ => rfl) (fun _ _ _ => rfl)]
  simp

/-- The central differences at a node. -/
def slopes (g : Shape) (dx : Nat → α) (data : Int → α) (x : Nat → Int) : List α :=
  (List.range 3).map fun d => if d < g.dim then (Stencil.view .serial g data (Stencil.bump x d 1) - Stencil.view .serial g data (Stencil.bump x d (-1))) / (2 * dx d) else 0

/-- **C84.** Scalar grids with normals: the same rows with the central differences behind the place. -/
theorem scalars_normals {g : Shape} (hg : g.Wf) (h0 : g.ghosts = 0) (hpar : ∀ j, j < g.dim → g.b0 j ≠ .parallel ∧ g.b1 j ≠ .parallel)
    (hm : ∀ j, j < g.dim → g.b0 j = .mirror ∨ g.b1 j = .mirror → 2 ≤ g.x1 j - g.x0 j)
    (dx : Nat → α) (mode : Nat) (levels : List α) (tol : α) (junk : List α) (hj : junk.length = g.dim) (data : Int → α) :
    scalars g dx mode true levels tol junk data =
      .ok ((chosen g fun n => Near tol levels (scalarView mode (data n))).map fun n => Place g dx (g.position n) ++ slopes g dx data (g.position n)) := by
  rw [scalars, cloud_eq (φ := fun n => scalarView mode (data n)) (ν := fun n => slopes g dx data (g.position n)) h0 dx levels tol (fun _ _ => rfl) (fun _ _ _ => rfl)]
  intro n hn _
  have hx := Shape.position_isNode hg (i := (n : Int)) (by omega) (by omega)
  have hr := Stencil.inReach_serial hg hx hpar hm
  simp only [if_true]
  rw [Stencil.gradient_eq .serial dx junk hj data _ hr, Outcome.ok_bind]
  congr 1
  rw [columns, slopes]
  apply List.map_congr_left
  intro d _
  by_cases hd : d < g.dim
  · rw [if_pos hd, if_pos hd]
    simp only [List.getD_eq_getElem?_getD, List.getElem?_map, List.getElem?_range hd, Option.map_some, Option.getD_some]
    rw [Stencil.gradWeight, one_add_one_eq_two, one_div, div_eq_inv_mul]
  · rw [if_neg hd, if_neg hd]

theorem gather_ok {inc : Int} {c : List α} {is : List Int} (h : ∀ i ∈ is, 0 ≤ i ∧ i < c.length) : ∃ v, Image.gather inc c is = .ok v := by
  have key : ∀ (is : List Int) (s : α), (∀ i ∈ is, 0 ≤ i ∧ i < c.length) →
      ∃ v, is.foldlM (fun sum i => (Convert.vecGet c i).bind fun v => .ok (if inc > 1 then sum + v ^ 2 else v)) s = Outcome.ok v := by
    intro is
    induction is with
    | nil => intro s _; exact ⟨s, rfl⟩
    | cons i is ih =>
      intro s hi
      obtain ⟨a, b⟩ := hi i (by simp)
      have hl : i.toNat < c.length := by omega
      have hg : Convert.vecGet c i = .ok c[i.toNat] := by
        rw [Convert.vecGet, if_pos b, if_pos a, List.getElem?_eq_getElem hl]
      obtain ⟨v, hv⟩ := ih (if inc > 1 then s + c[i.toNat] ^ 2 else c[i.toNat]) fun j hj => hi j (List.mem_cons_of_mem _ hj)
      refine ⟨v, ?_⟩
      rw [List.foldlM_cons, hg, Outcome.ok_bind, Outcome.bind_eq, Outcome.ok_bind, hv]
  exact key is 0 h

/-- **C84.** Vector grids: the rows depend on the contour field only. The mode, the fields named by `--field` or `--exclude` and `--normal` have no effect, as long as the fields
exist. -/
theorem vectors_spec {g : Shape} (h0 : g.ghosts = 0) (dx : Nat → α) (mode : Nat) (normal : Bool) (levels : List α) {lvlfield : Int} (tol : α) {fields : Nat} {fieldset : List Int}
    {data : Int → List α} (hlen : ∀ n : Nat, n < g.nodes.toNat → (data n).length = fields) (hl : 0 ≤ lvlfield ∧ lvlfield < fields)
    (hf : mode = 2 → ∀ i ∈ fieldset, 0 ≤ i ∧ i < fields) :
    vectors g dx mode normal levels lvlfield tol fields fieldset data =
      .ok ((chosen g fun n => Near tol levels ((data n).getD lvlfield.toNat 0)).map fun n => Place g dx (g.position n)) := by
  rw [vectors, cloud_eq (φ := fun n => (data n).getD lvlfield.toNat 0) (ν := fun _ => []) h0 dx levels tol]
  · simp
  · intro n hn
    have hall : ∀ i ∈ Image.allFields fields, 0 ≤ i ∧ i < ((data n).length : Int) := by
      intro i hi
      simp only [Image.allFields, List.mem_map, List.mem_range] at hi
      obtain ⟨k, hk, rfl⟩ := hi
      rw [hlen n hn]; omega
    have : ∃ v, vectorSum mode fields fieldset (data n) = .ok v := by
      unfold vectorSum
      dsimp only
      split
      · exact gather_ok hall
      split
      · exact gather_ok hall
      split
      · rename_i h2; exact gather_ok fun i hi => by rw [hlen n hn]; exact hf h2 i hi
      split
      · exact gather_ok fun i hi => hall i (List.mem_filter.1 hi).1
      · exact ⟨0, rfl⟩
    obtain ⟨v, hv⟩ := this
    rw [hv]; rfl
  · intro n hn _
    have hk : lvlfield.toNat < (data n).length := by rw [hlen n hn]; omega
    rw [Convert.vecGet, if_pos (by rw [hlen n hn]; exact hl.2), if_pos hl.1, List.getElem?_eq_getElem hk]
    simp only [List.getD_eq_getElem?_getD, List.getElem?_eq_getElem hk, Option.getD_some]
  · intro _ _ _; rfl

/-- **C84.** Sparse grids: the same, for every contour field. -/
theorem sparses_spec {g : Shape} (h0 : g.ghosts = 0) (dx : Nat → α) (mode : Nat) (normal : Bool) (levels : List α) (lvlfield : Int) (tol : α) (fieldset : List Int)
    (data : Int → Sparse.Cell α) :
    sparses g dx mode normal levels lvlfield tol fieldset data =
      .ok ((chosen g fun n => Near tol levels (Sparse.get (data n) lvlfield)).map fun n => Place g dx (g.position n)) := by
  rw [sparses, cloud_eq (φ := fun n => Sparse.get (data n) lvlfield) (ν := fun _ => []) h0 dx levels tol (fun _ _ => rfl) (fun _ _ _ => rfl) (fun _ _ _ => rfl)]
  simp

/-- **C84, negative.** `--field`, `--exclude`, `--mag` and `--normal` do not change the point cloud of a vector grid. -/
theorem vectors_options {g : Shape} (h0 : g.ghosts = 0) (dx : Nat → α) {m m' : Nat} (b b' : Bool) (levels : List α) {lvlfield : Int} (tol : α) {fields : Nat} {s s' : List Int}
    {data : Int → List α} (hlen : ∀ n : Nat, n < g.nodes.toNat → (data n).length = fields) (hl : 0 ≤ lvlfield ∧ lvlfield < fields)
    (hs : ∀ i ∈ s, 0 ≤ i ∧ i < fields) (hs' : ∀ i ∈ s', 0 ≤ i ∧ i < fields) :
    vectors g dx m b levels lvlfield tol fields s data = vectors g dx m' b' levels lvlfield tol fields s' data := by
  rw [vectors_spec h0 dx m b levels tol hlen hl fun _ => hs, vectors_spec h0 dx m' b' levels tol hlen hl fun _ => hs']

/-- **C84.** No point is written twice. -/
theorem places_distinct {g : Shape} (hg : g.Wf) (hd : g.dim ≤ 3) {dx : Nat → α} (hdx : ∀ d < g.dim, dx d ≠ 0) (p : Int → Prop) [DecidablePred p] :
    ((chosen g p).map fun n => Place g dx (g.position n)).Nodup := by
  have hn : (chosen g p).Nodup := by
    refine List.Nodup.filter _ ((List.nodup_map_iff fun a b h => by simpa using h).2 List.nodup_range)
  refine (List.nodup_map_iff_inj_on hn).2 ?_
  intro a ha b hb h
  obtain ⟨a0, a1, -⟩ := mem_chosen.1 ha
  obtain ⟨b0, b1, -⟩ := mem_chosen.1 hb
  refine Shape.position_inj hg a0 a1 b0 b1 fun j hj => ?_
  have := congrArg (fun l : List α => l[j]?) h
  simp only [Place, List.getElem?_map, List.getElem?_range (show j < 3 by omega), Option.map_some, if_pos hj, Option.some.injEq] at this
  exact_mod_cast mul_left_cancel₀ (hdx j hj) this

/-! ### What near means -/

omit [IsStrictOrderedRing α] in
/-- **C84, negative.** Without `--contour` there are no points. -/
theorem near_none (tol v : α) : ¬ Near tol [] v := by simp [Near]

omit [IsStrictOrderedRing α] in
/-- **C84, negative.** The level zero selects no point, not even where the value is zero. -/
theorem near_zero (tol v : α) (levels : List α) : Near tol (0 :: levels) v ↔ Near tol levels v := by
  constructor
  · rintro ⟨l, hl, h0, h⟩
    rcases List.mem_cons.1 hl with rfl | hl
    · exact absurd rfl h0
    · exact ⟨l, hl, h0, h⟩
  · rintro ⟨l, hl, h⟩; exact ⟨l, List.mem_cons_of_mem _ hl, h⟩

/-- **C84.** The cloud does not depend on the unit of the field. -/
theorem near_scale (tol v : α) (levels : List α) {s : α} (hs : s ≠ 0) : Near tol (levels.map (s * ·)) (s * v) ↔ Near tol levels v := by
  have key : ∀ l : α, (s * l ≠ 0 ∧ |s * v - s * l| < tol * |s * l|) ↔ (l ≠ 0 ∧ |v - l| < tol * |l|) := fun l => by
    rw [← mul_sub, abs_mul, abs_mul, mul_left_comm, mul_lt_mul_iff_right₀ (abs_pos.2 hs)]
    simp [hs]
  constructor
  · rintro ⟨l, hl, h⟩
    obtain ⟨k, hk, rfl⟩ := List.mem_map.1 hl
    exact ⟨k, hk, (key k).1 h⟩
  · rintro ⟨l, hl, h⟩; exact ⟨s * l, List.mem_map.2 ⟨l, hl, rfl⟩, (key l).2 h⟩

/-- **C84, negative.** With `--mag`, negative levels select no point for tolerances up to one. -/
theorem near_mag_negative {tol v : α} (ht : tol ≤ 1) {levels : List α} (hl : ∀ l ∈ levels, l ≤ 0) : ¬ Near tol levels (scalarView 1 v) := by
  rintro ⟨l, hm, h0, h⟩
  have hneg : l < 0 := lt_of_le_of_ne (hl l hm) h0
  rw [scalarView, if_pos rfl, abs_of_neg hneg, abs_of_pos (by have := abs_nonneg v; linarith)] at h
  have := abs_nonneg v
  nlinarith

/-- **C84.** The level itself is on its contour. -/
theorem near_self {tol l : α} (ht : 0 < tol) {levels : List α} (hl : l ∈ levels) (h0 : l ≠ 0) : Near tol levels l :=
  ⟨l, hl, h0, by rw [sub_self, abs_zero]; exact mul_pos ht (abs_pos.2 h0)⟩

/-! ### Fields that do not exist -/

/-- The first node ends the program. -/
theorem cloud_first {T : Type} {g : Shape} (h0 : g.ghosts = 0) (hn : 0 < g.nodes) (dx : Nat → α) {l : α} {levels : List α} (tol : α) {other : T → Outcome Unit}
    {value : T → Outcome α} {normals : (Nat → Int) → Outcome (List α)} {data : Int → T} (ho : other (data 0) = .ok ()) :
    (value (data 0) = .ub → cloud g dx (l :: levels) tol other value normals data = .ub) ∧
    (∀ c, value (data 0) = .abort c → cloud g dx (l :: levels) tol other value normals data = .abort c) := by
  obtain ⟨k, hk⟩ : ∃ k, g.nodes.toNat = k + 1 := ⟨g.nodes.toNat - 1, by omega⟩
  have hd : deref g data (g.atNode .serial (0 : Nat)) = .ok (data 0) := Convert.deref_ok h0 data (by omega)
  constructor
  · intro hv
    rw [cloud, hk, List.range_succ_eq_map, List.foldlM_cons, hd, Outcome.ok_bind, ho, Outcome.ok_bind, included, hv]; rfl
  · intro c hv
    rw [cloud, hk, List.range_succ_eq_map, List.foldlM_cons, hd, Outcome.ok_bind, ho, Outcome.ok_bind, included, hv]; rfl

/-- **C84, negative.** A contour field that the grid does not have: an assertion fails, and for negative numbers the behaviour is undefined. -/
theorem vectors_no_field {g : Shape} (h0 : g.ghosts = 0) (hn : 0 < g.nodes) (dx : Nat → α) (normal : Bool) (l : α) (levels : List α) {lvlfield : Int} (tol : α) {fields : Nat}
    {data : Int → List α} (hlen : (data 0).length = fields) :
    (fields ≤ lvlfield → vectors g dx 0 normal (l :: levels) lvlfield tol fields [] data = .abort 134) ∧
    (lvlfield < 0 → vectors g dx 0 normal (l :: levels) lvlfield tol fields [] data = .ub) := by
  have hs : ∃ v, vectorSum 0 fields [] (data 0) = .ok v := gather_ok fun i hi => by
    simp only [Image.allFields, List.mem_map, List.mem_range] at hi
    obtain ⟨k, hk, rfl⟩ := hi
    rw [hlen]; omega
  obtain ⟨v, hv⟩ := hs
  have ho : (vectorSum 0 fields [] (data 0)).bind (fun _ => Outcome.ok ()) = .ok () := by rw [hv]; rfl
  constructor
  · intro h
    exact (cloud_first h0 hn dx tol ho).2 134 (by rw [Convert.vecGet, if_neg (by omega)])
  · intro h
    exact (cloud_first h0 hn dx tol ho).1 (by rw [Convert.vecGet, if_pos (by omega), if_neg (by omega)])

/-! ### Headers -/

/-- **C84, negative.** With normals the header names five columns, because a tab is missing, but every row has six. -/
theorem header_short {g : Shape} (hg : g.Wf) (h0 : g.ghosts = 0) (hpar : ∀ j, j < g.dim → g.b0 j ≠ .parallel ∧ g.b1 j ≠ .parallel)
    (hm : ∀ j, j < g.dim → g.b0 j = .mirror ∨ g.b1 j = .mirror → 2 ≤ g.x1 j - g.x0 j)
    (dx : Nat → α) (mode : Nat) (levels : List α) (tol : α) (junk : List α) (hj : junk.length = g.dim) (data : Int → α) :
    (header true).toList.count '\t' + 1 = 5 ∧ ∃ rows, scalars g dx mode true levels tol junk data = .ok rows ∧ ∀ r ∈ rows, r.length = 6 := by
  refine ⟨by decide, _, scalars_normals hg h0 hpar hm dx mode levels tol junk hj data, ?_⟩
  intro r hr
  obtain ⟨n, -, rfl⟩ := List.mem_map.1 hr
  simp [Place, slopes]

/-! ### Examples -/

/-- Four nodes in a row, spacing 1/2. -/
def row : Shape := ⟨1, fun _ => 0, fun j => if j = 0 then 4 else 0, fun _ => .periodic, fun _ => .periodic, 0⟩

example : row.Wf ∧ row.ghosts = 0 ∧ (∀ j, j < row.dim → row.b0 j ≠ .parallel ∧ row.b1 j ≠ .parallel) := by
  refine ⟨⟨by decide, by decide, by decide⟩, rfl, fun _ _ => ⟨?_, ?_⟩⟩
  · show BC.periodic ≠ .parallel; decide
  · show BC.periodic ≠ .parallel; decide

/-- Values 0, 1, 2, 3 and the levels 1 and 5/2 with tolerance 1/4. -/
example : scalars row (fun _ => (1 : ℚ) / 2) 0 true [1, 5 / 2] (1 / 4) [0] (fun n => n) = .ok [[1 / 2, 0, 0, 2, 0, 0], [1, 0, 0, 2, 0, 0], [3 / 2, 0, 0, -2, 0, 0]] := by decide +kernel

example : vectors row (fun _ => (1 : ℚ) / 2) 2 true [1] 1 (1 / 4) 2 [0] (fun n => [0, n]) = .ok [[1 / 2, 0, 0]] := by decide +kernel

/-- **C84, negative.** A contour that passes between two nodes is not seen: no point for the level 1/2 of a step from 0 to 1. -/
example : scalars row (fun _ => (1 : ℚ)) 0 false [1 / 2] (6 / 100) [] (fun n => if n < 2 then 0 else 1) = .ok [] := by decide +kernel

end MMSP.Cloud
