import Verif.Overflow
import Verif.DecompProps
/-!
# Property C58: when the index arithmetic fits into `int`

For every function of `Verif.Overflow`: the exact condition under which no operation overflows, and that the result is
then the one of the unbounded model (to which all other theorems apply); otherwise the run is undefined.
-/

namespace MMSP.Overflow

open Finset

/-- Largest `int`. -/
def intMax : Int := 2147483647

/-- The run returns `v` when `P` holds and is undefined otherwise. -/
def Exact (o : Outcome α) (v : α) (P : Prop) : Prop := (P → o = .ok v) ∧ (¬ P → o = .ub)

theorem Exact.bind {o : Outcome α} {v : α} {P : Prop} {f : α → Outcome β} {w : β} {Q : Prop} (h : Exact o v P)
    (hf : P → Exact (f v) w Q) : Exact (o.bind f) w (P ∧ Q) := by
  by_cases hp : P
  · rw [h.1 hp]
    refine ⟨fun hq => (hf hp).1 hq.2, fun hq => (hf hp).2 fun q => hq ⟨hp, q⟩⟩
  · rw [h.2 hp]
    exact ⟨fun hq => absurd hq.1 hp, fun _ => rfl⟩

theorem Exact.congr {o : Outcome α} {v w : α} {P Q : Prop} (h : Exact o v P) (hv : P → v = w) (hq : P ↔ Q) :
    Exact o w Q :=
  ⟨fun q => by rw [h.1 (hq.2 q), hv (hq.2 q)], fun q => h.2 fun p => q (hq.1 p)⟩

theorem Exact.ok {v : α} : Exact (Outcome.ok v) v True := ⟨fun _ => rfl, fun h => absurd trivial h⟩

theorem exact_chk (z : Int) : Exact (chk z) z (InInt z) := ⟨fun h => if_pos h, fun h => if_neg h⟩

theorem Exact.mapM {f : Nat → Outcome α} {v : Nat → α} {P : Nat → Prop} (l : List Nat)
    (h : ∀ i ∈ l, Exact (f i) (v i) (P i)) : Exact (l.mapM f) (l.map v) (∀ i ∈ l, P i) := by
  induction l with
  | nil => exact ⟨fun _ => rfl, fun h => absurd (by simp) h⟩
  | cons a l ih =>
    rw [List.mapM_cons]
    refine Exact.congr (Exact.bind (h a (by simp)) fun _ => Exact.bind (ih fun i hi => h i (by simp [hi])) fun _ => Exact.ok)
      (fun _ => rfl) ?_
    simp

theorem Exact.foldlM {f : σ → Nat → Outcome σ} {g : σ → Nat → σ} {P : Nat → Prop} {I : σ → Prop} (l : List Nat) (s : σ)
    (hs : I s) (hI : ∀ s, ∀ i ∈ l, I s → I (g s i))
    (h : ∀ s, ∀ i ∈ l, I s → Exact (f s i) (g s i) (P i)) : Exact (l.foldlM f s) (l.foldl g s) (∀ i ∈ l, P i) := by
  induction l generalizing s with
  | nil => exact ⟨fun _ => rfl, fun h => absurd (by simp) h⟩
  | cons a l ih =>
    rw [List.foldlM_cons]
    refine ((h s a (by simp) hs).bind fun _ => ih (g s a) (hI s a (by simp) hs) (fun s i hi => hI s i (by simp [hi]))
      fun s i hi => h s i (by simp [hi])).congr (fun _ => rfl) ?_
    simp

theorem getD_range_map (v : Nat → Int) {d j : Nat} (hj : j < d) : ((List.range d).map v).getD j 0 = v j := by
  simp [List.getD, List.getElem?_map, List.getElem?_range hj]

/-! ## Products and sums -/

theorem le_mul_of_one_le {a b : Int} (ha : 1 ≤ a) (hb : 1 ≤ b) : a ≤ a * b ∧ b ≤ a * b := by
  constructor <;> nlinarith

theorem prod_one_le {l : List Nat} {w : Nat → Int} (hw : ∀ j ∈ l, 1 ≤ w j) : 1 ≤ (l.map w).prod := by
  induction l with
  | nil => simp
  | cons a l ih =>
    rw [List.map_cons, List.prod_cons]
    have h1 := hw a (by simp)
    have h2 := ih fun j hj => hw j (by simp [hj])
    nlinarith

/-- A loop that multiplies numbers `≥ 1` overflows exactly when the final product does not fit. -/
theorem exact_prodLoop (f : Int → Nat → Outcome Int) (w : Nat → Int) (l : List Nat) (hw : ∀ j ∈ l, 1 ≤ w j)
    (hf : ∀ p, 1 ≤ p → ∀ j ∈ l, Exact (f p j) (p * w j) (p * w j ≤ intMax)) (a : Int) (ha : 1 ≤ a) (ha' : a ≤ intMax) :
    Exact (l.foldlM f a) (a * (l.map w).prod) (a * (l.map w).prod ≤ intMax) := by
  induction l generalizing a with
  | nil => simp only [List.foldlM_nil, List.map_nil, List.prod_nil, mul_one]; exact ⟨fun _ => rfl, fun h => absurd ha' h⟩
  | cons j l ih =>
    rw [List.foldlM_cons, List.map_cons, List.prod_cons, ← mul_assoc]
    have h1 := hw j (by simp)
    have h2 : 1 ≤ a * w j := by nlinarith
    have h3 := prod_one_le fun k hk => hw k (List.mem_cons_of_mem j hk)
    refine ((hf a ha j (by simp)).bind fun hp => ih (fun k hk => hw k (by simp [hk]))
      (fun p hp k hk => hf p hp k (by simp [hk])) _ h2 hp).congr (fun _ => rfl) ?_
    have := (le_mul_of_one_le h2 h3).1
    constructor
    · exact fun h => h.2
    · exact fun h => ⟨by omega, h⟩

/-- A loop that adds numbers `≥ 0` with a bound on every partial sum fails exactly when the final sum exceeds it. -/
theorem exact_sumLoop {B : Int} (f : Int → Nat → Outcome Int) (w : Nat → Int) (l : List Nat) (hw : ∀ j ∈ l, 0 ≤ w j)
    (hf : ∀ p, 0 ≤ p → ∀ j ∈ l, Exact (f p j) (p + w j) (p + w j ≤ B)) (a : Int) (ha : 0 ≤ a) (ha' : a ≤ B) :
    Exact (l.foldlM f a) (a + (l.map w).sum) (a + (l.map w).sum ≤ B) := by
  induction l generalizing a with
  | nil => simp only [List.foldlM_nil, List.map_nil, List.sum_nil, add_zero]; exact ⟨fun _ => rfl, fun h => absurd ha' h⟩
  | cons j l ih =>
    rw [List.foldlM_cons, List.map_cons, List.sum_cons, ← add_assoc]
    have h1 := hw j (by simp)
    have h3 : 0 ≤ (l.map w).sum := by
      apply List.sum_nonneg
      intro x hx
      obtain ⟨k, hk, rfl⟩ := List.mem_map.1 hx
      exact hw k (by simp [hk])
    refine ((hf a ha j (by simp)).bind fun hp => ih (fun k hk => hw k (by simp [hk]))
      (fun p hp k hk => hf p hp k (by simp [hk])) _ (by omega) hp).congr (fun _ => rfl) ?_
    constructor
    · exact fun h => h.2
    · exact fun h => ⟨by omega, h⟩

theorem list_prod_range (d : Nat) (w : Nat → Int) : ((List.range d).map w).prod = ∏ j ∈ range d, w j := by
  induction d with
  | zero => simp
  | succ d ih => rw [List.range_succ, List.map_append, List.prod_append, ih, Finset.prod_range_succ]; simp

theorem list_sum_range (d : Nat) (w : Nat → Int) : ((List.range d).map w).sum = ∑ j ∈ range d, w j := by
  induction d with
  | zero => simp
  | succ d ih => rw [List.range_succ, List.map_append, List.sum_append, ih, Finset.sum_range_succ]; simp

theorem list_prod_filter (d : Nat) (p : Nat → Prop) [DecidablePred p] (w : Nat → Int) :
    (((List.range d).filter fun j => decide (p j)).map w).prod = ∏ j ∈ (range d).filter p, w j := by
  induction d with
  | zero => simp
  | succ d ih =>
    rw [List.range_succ, List.filter_append, List.map_append, List.prod_append, ih, Finset.range_add_one,
      Finset.filter_insert]
    by_cases h : p d
    · rw [if_pos h, Finset.prod_insert (by simp)]
      simp [h, mul_comm]
    · rw [if_neg h]
      simp [h]

theorem after_prod (d i : Nat) (w : Nat → Int) : ((after d i).map w).prod = slice d w i := by
  unfold after slice
  rw [list_prod_filter d (fun j => i < j) w]
  apply Finset.prod_congr _ (fun _ _ => rfl)
  ext k
  simp only [mem_filter, Finset.mem_range, mem_Ico]
  omega

theorem exact_widthProd {hi lo : Nat → Int} {l : List Nat} (h : ∀ j ∈ l, lo j < hi j) :
    Exact (widthProd hi lo l) ((l.map fun j => hi j - lo j).prod) ((l.map fun j => hi j - lo j).prod ≤ intMax) := by
  have := exact_prodLoop (fun p j => do
    let w ← chk (hi j - lo j)
    chk (p * w)) (fun j => hi j - lo j) l (fun j hj => by have := h j hj; omega)
    (fun p hp j hj => by
      refine Exact.congr (Exact.bind (exact_chk _) fun _ => exact_chk _) (fun _ => rfl) ?_
      have h1 : 1 ≤ hi j - lo j := by have := h j hj; omega
      have := le_mul_of_one_le hp h1
      unfold InInt intMax
      generalize p * (hi j - lo j) = z at *
      omega) 1 le_rfl (by decide)
  rw [one_mul] at this
  exact this

theorem exact_product {d : Nat} {f : Nat → Int} (h : ∀ j, j < d → 1 ≤ f j) :
    Exact (product d f) (∏ j ∈ range d, f j) (∏ j ∈ range d, f j ≤ intMax) := by
  have := exact_prodLoop (fun p j => chk (p * f j)) f (List.range d) (fun j hj => h j (List.mem_range.1 hj))
    (fun p hp j hj => (exact_chk _).congr (fun _ => rfl) (by
      have := (le_mul_of_one_le hp (h j (List.mem_range.1 hj))).1
      unfold InInt intMax
      omega)) 1 le_rfl (by decide)
  rw [one_mul, list_prod_range] at this
  exact this

/-! ## Sizes -/

theorem tailProd_le_prod {d : Nat} {r : Nat → Int} (hr : ∀ j, j < d → 0 < r j) (i : Nat) :
    tailProd d r i ≤ ∏ j ∈ range d, r j := by
  unfold tailProd
  have hsub : Ico i d ⊆ range d := by
    intro k hk
    have := mem_Ico.1 hk
    exact Finset.mem_range.2 this.2
  rw [← Finset.prod_sdiff hsub]
  have h1 : 1 ≤ ∏ k ∈ range d \ Ico i d, r k := by
    have : 0 < ∏ k ∈ range d \ Ico i d, r k :=
      Finset.prod_pos fun k hk => hr k (Finset.mem_range.1 (Finset.mem_sdiff.1 hk).1)
    omega
  have h2 : 0 < ∏ k ∈ Ico i d, r k := Finset.prod_pos fun k hk => hr k (mem_Ico.1 hk).2
  nlinarith

theorem slice_le_prod {d : Nat} {r : Nat → Int} (hr : ∀ j, j < d → 0 < r j) (i : Nat) :
    slice d r i ≤ ∏ j ∈ range d, r j := tailProd_le_prod hr (i + 1)

theorem width_le_prod {d : Nat} {r : Nat → Int} (hr : ∀ j, j < d → 0 < r j) {i : Nat} (hi : i < d) :
    r i ≤ ∏ j ∈ range d, r j := by
  rw [← Finset.mul_prod_erase (range d) r (Finset.mem_range.2 hi)]
  have h1 : 0 < ∏ k ∈ (range d).erase i, r k :=
    Finset.prod_pos fun k hk => hr k (Finset.mem_range.1 (Finset.mem_erase.1 hk).2)
  have := hr i hi
  nlinarith

/-- The values `setup()` is meant to store. -/
def exactSizes (g : Shape) : Sizes :=
  ⟨(List.range g.dim).map g.s0, (List.range g.dim).map g.s1, (List.range g.dim).map g.sx,
    (List.range g.dim).map g.xx, g.cells, g.nodes⟩

/-- C58: strides, cell count and node count are computed without overflow exactly when the ghost limits and the number
of cells are representable. -/
theorem sizes_exact {g : Shape} (hg : g.Wf) :
    Exact (sizes g) (exactSizes g)
      ((∀ i, i < g.dim → InInt (g.x0 i - g.ghosts) ∧ InInt (g.x1 i + g.ghosts)) ∧ g.cells ≤ intMax) := by
  have hsx := Shape.sx_radix_pos hg
  have hxx := Shape.xx_radix_pos hg
  have hd := hg.dim_pos
  have hcs := Shape.cells_eq hg
  have hns := Shape.nodes_eq hg
  have hle : g.nodes ≤ g.cells := by
    rw [hcs, hns]
    apply Finset.prod_le_prod
    · intro k hk; exact (hxx k (Finset.mem_range.1 hk)).le
    · intro k hk
      have := hg.ghosts
      simp only [Shape.s1, Shape.s0]
      omega
  have key : ∀ i, i < g.dim → Exact (widthProd (fun j => ((List.range g.dim).map g.s1).getD j 0)
      (fun j => ((List.range g.dim).map g.s0).getD j 0) (after g.dim i)) (g.sx i) (g.sx i ≤ intMax) := by
    intro i _
    have hmem : ∀ j ∈ after g.dim i, j < g.dim := by
      intro j hj
      exact List.mem_range.1 (List.mem_filter.1 hj).1
    have hmap : (after g.dim i).map (fun j => ((List.range g.dim).map g.s1).getD j 0 -
        ((List.range g.dim).map g.s0).getD j 0) = (after g.dim i).map fun j => g.s1 j - g.s0 j := by
      apply List.map_congr_left
      intro j hj
      rw [getD_range_map _ (hmem j hj), getD_range_map _ (hmem j hj)]
    have := exact_widthProd (hi := fun j => ((List.range g.dim).map g.s1).getD j 0)
      (lo := fun j => ((List.range g.dim).map g.s0).getD j 0) (l := after g.dim i) (by
        intro j hj
        rw [getD_range_map _ (hmem j hj), getD_range_map _ (hmem j hj)]
        have := hsx j (hmem j hj)
        omega)
    rw [hmap, after_prod] at this
    exact this
  have key' : ∀ i, i < g.dim → Exact (widthProd g.x1 g.x0 (after g.dim i)) (g.xx i) (g.xx i ≤ intMax) := by
    intro i _
    have := exact_widthProd (hi := g.x1) (lo := g.x0) (l := after g.dim i) (by
        intro j hj
        exact hg.side j (List.mem_range.1 (List.mem_filter.1 hj).1))
    rw [after_prod] at this
    exact this
  unfold sizes
  simp only [Outcome.bind_eq, Outcome.pure_eq]
  refine Exact.congr (Exact.bind (Exact.mapM (v := g.s0) _ fun i _ => exact_chk _) fun _ =>
    Exact.bind (Exact.mapM (v := g.s1) _ fun i _ => exact_chk _) fun _ =>
    Exact.bind (Exact.mapM (v := g.sx) _ fun i hi => key i (List.mem_range.1 hi)) fun _ =>
    Exact.bind (Exact.mapM (v := g.xx) _ fun i hi => key' i (List.mem_range.1 hi)) fun _ =>
    Exact.bind (exact_chk _) fun _ => Exact.bind (exact_chk _) fun _ => Exact.bind (exact_chk _) fun _ =>
    Exact.bind (exact_chk _) fun _ => Exact.ok) ?_ ?_
  · intro _
    unfold exactSizes
    simp only [getD_range_map _ hd]
    rfl
  · simp only [getD_range_map _ hd, List.mem_range, and_true]
    constructor
    · rintro ⟨h0, h1, _, _, _, h, _⟩
      exact ⟨fun i hi => ⟨h0 i hi, h1 i hi⟩, h.2⟩
    · rintro ⟨h0, h⟩
      have hpos : 0 < g.nodes := by rw [hns]; exact Finset.prod_pos fun k hk => hxx k (Finset.mem_range.1 hk)
      have a1 := width_le_prod hsx hd
      have a2 := width_le_prod hxx hd
      have a3 := hsx 0 hd
      have a4 := hxx 0 hd
      rw [← hcs] at a1
      rw [← hns] at a2
      unfold intMax at h
      refine ⟨fun i hi => (h0 i hi).1, fun i hi => (h0 i hi).2, fun i hi => ?_, fun i hi => ?_, ?_, ?_, ?_, ?_⟩
      · have := slice_le_prod hsx i
        rw [← hcs] at this
        unfold Shape.sx intMax; omega
      · have := slice_le_prod hxx i
        rw [← hns] at this
        unfold Shape.xx intMax; omega
      · unfold InInt; omega
      · change InInt g.cells; unfold InInt; omega
      · unfold InInt; omega
      · change InInt g.nodes; unfold InInt; omega

/-! ## Digit loops -/

theorem chk_ok {z : Int} (h0 : -2147483648 ≤ z) (h1 : z ≤ intMax) : chk z = .ok z := if_pos ⟨h0, h1⟩

theorem tdiv_step {t s : Int} (ht : 0 ≤ t) (hs : 0 < s) :
    0 ≤ t.tdiv s ∧ t.tdiv s ≤ t ∧ 0 ≤ t.tdiv s * s ∧ t.tdiv s * s ≤ t := by
  rw [Int.tdiv_eq_ediv_of_nonneg ht]
  have h1 : 0 ≤ t / s := Int.ediv_nonneg ht hs.le
  have h2 : t / s * s ≤ t := Int.ediv_mul_le t hs.ne'
  have h3 : t / s ≤ t / s * s := by nlinarith
  exact ⟨h1, by omega, by positivity, h2⟩

/-- The digit loop of a number in range never overflows. -/
theorem digits_ok {d : Nat} {r : Nat → Int} (hr : ∀ j, j < d → 0 < r j) {w : Nat → Outcome Int}
    (hw : ∀ j, j < d → w j = .ok (slice d r j)) {out : Nat → Int → Outcome Int} {v : Nat → Int} {n : Int} (h0 : 0 ≤ n)
    (h1 : n < ∏ k ∈ range d, r k) (hn : n ≤ intMax)
    (hout : ∀ j, j < d → out j (digit (slice d r) n j) = .ok (v j)) :
    digits d w out n = .ok ((List.range d).map v) := by
  have aux : ∀ k, k ≤ d → (List.range k).foldlM (fun (s : Int × List Int) j => do
      let v ← w j
      let q ← quot s.1 v
      let x ← out j q
      let m ← chk (q * v)
      let t ← chk (s.1 - m)
      pure (t, s.2 ++ [x])) (n, []) = Outcome.ok (digitRest (slice d r) n k, (List.range k).map v) ∧
      digitRest (slice d r) n k ≤ n := by
    intro k hk
    induction k with
    | zero => exact ⟨rfl, le_rfl⟩
    | succ k ih =>
      obtain ⟨ih1, ih2⟩ := ih (by omega)
      have hb := digitRest_bounds hr h0 h1 (j := k) (by omega)
      have hs := slice_pos hr k
      have ht := tdiv_step hb.1 hs
      unfold intMax at hn
      constructor
      · rw [List.range_succ, List.foldlM_append, ih1]
        simp only [Outcome.bind_eq, Outcome.ok_bind, List.foldlM_cons, List.foldlM_nil, hw k (by omega)]
        rw [quot, if_neg hs.ne', chk_ok (by omega) (by unfold intMax; omega)]
        simp only [Outcome.ok_bind]
        have := hout k (by omega)
        unfold digit at this
        rw [this]
        simp only [Outcome.ok_bind]
        rw [chk_ok (by omega) (by unfold intMax; omega)]
        simp only [Outcome.ok_bind]
        rw [chk_ok (by omega) (by unfold intMax; omega)]
        simp only [Outcome.ok_bind, Outcome.pure_eq, List.map_append, List.map_cons, List.map_nil]
        rfl
      · simp only [digitRest]
        omega
  unfold digits
  rw [(aux d le_rfl).1]
  rfl

/-! ## The process grid -/

theorem exact_testArea {d : Nat} {a b f : Nat → Int} (ha : ∀ j, j < d → 1 ≤ a j) (hab : ∀ j, j < d → b j = a j)
    (hf : ∀ j, j < d → 1 ≤ f j) :
    Exact (testArea d b f) (Decomp.cost d a f) (Decomp.cost d a f ≤ intMax) := by
  have := exact_sumLoop (B := intMax) (fun t j => do
    let e ← chk (1 + f j)
    let m ← chk (b j * e)
    chk (t + m)) (fun j => a j * (1 + f j)) (List.range d) (fun j hj => by
      have h1 := ha j (List.mem_range.1 hj)
      have h2 := hf j (List.mem_range.1 hj)
      positivity)
    (fun t ht j hj => by
      have h1 := ha j (List.mem_range.1 hj)
      have h2 := hf j (List.mem_range.1 hj)
      rw [hab j (List.mem_range.1 hj)]
      refine Exact.congr (Exact.bind (exact_chk _) fun _ => Exact.bind (exact_chk _) fun _ => exact_chk _)
        (fun _ => rfl) ?_
      have := le_mul_of_one_le (a := a j) (b := 1 + f j) h1 (by omega)
      unfold InInt intMax
      generalize a j * (1 + f j) = z at *
      omega) 0 le_rfl (by decide)
  rw [zero_add, list_sum_range] at this
  exact this

/-- One iteration of the minimisation in unbounded arithmetic, on the pair of `minarea` and the array `p1`. -/
def pureStep (np d : Nat) (a : Nat → Int) (s : Int × List Int) (i : Nat) : Int × List Int :=
  if ∏ j ∈ range d, Decomp.comboFactor np d i j = np then
    if Decomp.cost d a (Decomp.comboFactor np d i) < s.1 ∨ s.1 < 0 then
      (Decomp.cost d a (Decomp.comboFactor np d i), (List.range d).map (Decomp.comboFactor np d i)) else s
  else s

theorem pureStep_eq (np d : Nat) (a : Nat → Int) (l : List Nat) (b : Decomp.Best) :
    l.foldl (pureStep np d a) (b.minarea, (List.range d).map b.p1) =
      ((l.foldl (Decomp.chooseStep np d a) b).minarea,
        (List.range d).map (l.foldl (Decomp.chooseStep np d a) b).p1) := by
  induction l generalizing b with
  | nil => rfl
  | cons i l ih =>
    rw [List.foldl_cons, List.foldl_cons, ← ih]
    congr 1
    rw [Decomp.chooseStep_eq]
    unfold pureStep
    split
    · dsimp only
      split <;> rfl
    · rfl

theorem slice_const (d n j : Nat) : slice d (fun _ => (n : Int)) j = ∏ _k ∈ range (after d j).length, (n : Int) := by
  rw [← after_prod, ← list_prod_range]
  congr 1
  rw [List.map_const', List.map_const', List.length_range]

theorem exact_chooseStep {np d : Nat} (hnp : 0 < np) {a b : Nat → Int} (ha : ∀ j, j < d → 1 ≤ a j)
    (hab : ∀ j, j < d → b j = a j) (hcom : (((Decomp.factors np).length ^ d : Nat) : Int) ≤ intMax)
    (s : Int × List Int) {i : Nat} (hi : i < (Decomp.factors np).length ^ d) :
    Exact (chooseStep np d (Decomp.factors np) b s i) (pureStep np d a s i)
      (∏ j ∈ range d, Decomp.comboFactor np d i j ≤ intMax ∧
        (∏ j ∈ range d, Decomp.comboFactor np d i j = np →
          Decomp.cost d a (Decomp.comboFactor np d i) ≤ intMax)) := by
  have hn := Decomp.factors_length_pos hnp
  have hr : ∀ j, j < d → (0 : Int) < ((Decomp.factors np).length : Int) := fun _ _ => by omega
  have hdig : digits d (fun j => product (after d j).length fun _ => ((Decomp.factors np).length : Int))
      (fun _ q => .ok q) i = .ok ((List.range d).map (Decomp.combo d (Decomp.factors np).length i)) := by
    apply digits_ok (r := fun _ => ((Decomp.factors np).length : Int)) hr
    · intro j hj
      rw [slice_const]
      apply (exact_product fun _ _ => by omega).1
      rw [← slice_const]
      refine le_trans (slice_le_prod hr j) ?_
      rw [Decomp.prod_nfac]
      exact hcom
    · omega
    · rw [Decomp.prod_nfac]; exact_mod_cast hi
    · have : (i : Int) < (((Decomp.factors np).length ^ d : Nat) : Int) := by exact_mod_cast hi
      omega
    · intro j _; rfl
  have hall : ((List.range d).map (Decomp.combo d (Decomp.factors np).length i)).all
      (fun c => decide (0 ≤ c) && decide (c < ((Decomp.factors np).length : Int))) = true := by
    rw [List.all_eq_true]
    intro c hc
    obtain ⟨j, hj, rfl⟩ := List.mem_map.1 hc
    have := Decomp.combo_bounds hn hi (List.mem_range.1 hj)
    simp [this.1, this.2]
  have hf : ∀ j, j < d → (Decomp.factors np).getD
      (((List.range d).map (Decomp.combo d (Decomp.factors np).length i)).getD j 0).toNat 0 =
      Decomp.comboFactor np d i j := by
    intro j hj
    rw [getD_range_map _ hj]
    rfl
  have hf1 : ∀ j, j < d → 1 ≤ Decomp.comboFactor np d i j := by
    intro j hj
    have := (Decomp.mem_factors.1 (Decomp.comboFactor_mem hnp hi hj)).1
    omega
  have hprod := exact_product (d := d) (f := fun j => (Decomp.factors np).getD
      (((List.range d).map (Decomp.combo d (Decomp.factors np).length i)).getD j 0).toNat 0)
    (fun j hj => by rw [hf j hj]; exact hf1 j hj)
  rw [Finset.prod_congr rfl fun j hj => hf j (Finset.mem_range.1 hj)] at hprod
  have htest := exact_testArea (d := d) (a := a) (b := b) (f := fun j => (Decomp.factors np).getD
      (((List.range d).map (Decomp.combo d (Decomp.factors np).length i)).getD j 0).toNat 0) ha hab
    (fun j hj => by rw [hf j hj]; exact hf1 j hj)
  have hcost : Decomp.cost d a (fun j => (Decomp.factors np).getD
      (((List.range d).map (Decomp.combo d (Decomp.factors np).length i)).getD j 0).toNat 0) =
      Decomp.cost d a (Decomp.comboFactor np d i) := by
    unfold Decomp.cost
    exact Finset.sum_congr rfl fun j hj => by beta_reduce; rw [hf j (Finset.mem_range.1 hj)]
  rw [hcost] at htest
  have hmap : (List.range d).map (fun j => (Decomp.factors np).getD
      (((List.range d).map (Decomp.combo d (Decomp.factors np).length i)).getD j 0).toNat 0) =
      (List.range d).map (Decomp.comboFactor np d i) :=
    List.map_congr_left fun j hj => hf j (List.mem_range.1 hj)
  unfold chooseStep
  rw [Outcome.bind_eq, hdig, Outcome.ok_bind, if_pos hall]
  simp only [Outcome.bind_eq, Outcome.pure_eq, hmap]
  refine Exact.bind hprod fun _ => ?_
  by_cases he : ∏ j ∈ range d, Decomp.comboFactor np d i j = np
  · rw [if_pos he]
    unfold pureStep
    rw [if_pos he]
    refine Exact.congr (Exact.bind (Q := True) htest fun _ => ?_) (fun _ => rfl) ?_
    · split <;> exact Exact.ok
    · simp [he]
  · rw [if_neg he]
    unfold pureStep
    rw [if_neg he]
    exact Exact.congr Exact.ok (fun _ => rfl) (by simp [he])

theorem factors_length_le (np : Nat) : (Decomp.factors np).length ≤ np := by
  unfold Decomp.factors
  refine le_trans (List.length_filter_le _ _) ?_
  simp

theorem one_le_area {d : Nat} {g0 g1 : Nat → Int} (hg : ∀ j, j < d → g0 j < g1 j) (i : Nat) :
    1 ≤ Decomp.area d g0 g1 i := by
  have : 0 < Decomp.area d g0 g1 i :=
    Finset.prod_pos fun j hj => by have := hg j (Finset.mem_range.1 (mem_filter.1 hj).1); omega
  omega

/-- C58: `setup()` finds the process grid without overflow exactly when all `dim` factors could be `np` at once and the
ghost area of every process grid is representable (not only that of the one chosen). -/
theorem choose_exact {np d : Nat} {g0 g1 : Nat → Int} (hnp : 0 < np) (hd : 0 < d) (hg : ∀ j, j < d → g0 j < g1 j) :
    Exact (choose np d g0 g1) ((List.range d).map (Decomp.choose np d g0 g1))
      ((np : Int) + 1 ≤ intMax ∧ (np : Int) ^ d ≤ intMax ∧
        ∀ q, Decomp.ProcGrid np d q → Decomp.ghostArea d g0 g1 q ≤ intMax) := by
  have hn := Decomp.factors_length_pos hnp
  have harea : ∀ i, Exact (widthProd g1 g0 ((List.range d).filter fun j => i ≠ j)) (Decomp.area d g0 g1 i)
      (Decomp.area d g0 g1 i ≤ intMax) := by
    intro i
    have := exact_widthProd (hi := g1) (lo := g0) (l := (List.range d).filter fun j => decide (i ≠ j))
      fun j hj => hg j (List.mem_range.1 (List.mem_filter.1 hj).1)
    rw [list_prod_filter d (fun j => i ≠ j)] at this
    exact this
  have hcom := exact_product (d := d) (f := fun _ => ((Decomp.factors np).length : Int)) fun _ _ => by omega
  rw [Decomp.prod_nfac] at hcom
  unfold choose
  simp only [Outcome.bind_eq, Outcome.pure_eq]
  refine Exact.congr (Exact.bind (exact_chk _) fun _ =>
    Exact.bind (Exact.mapM (v := Decomp.area d g0 g1) _ fun i _ => harea i) fun _ =>
    Exact.bind hcom fun hc => Exact.bind (Exact.foldlM (I := fun _ => True)
      (g := pureStep np d (Decomp.area d g0 g1))
      (P := fun i => ∏ j ∈ range d, Decomp.comboFactor np d i j ≤ intMax ∧
        (∏ j ∈ range d, Decomp.comboFactor np d i j = np →
          Decomp.cost d (Decomp.area d g0 g1) (Decomp.comboFactor np d i) ≤ intMax)) _ _ trivial
      (fun _ _ _ _ => trivial) fun s i hi _ => ?_) fun _ => Exact.ok) ?_ ?_
  · refine exact_chooseStep hnp (fun j _ => one_le_area hg j) (fun j hj => getD_range_map _ hj) hc s ?_
    rw [List.mem_range, Int.toNat_natCast] at hi
    exact hi
  · intro _
    rw [Int.toNat_natCast]
    have := pureStep_eq np d (Decomp.area d g0 g1) (List.range ((Decomp.factors np).length ^ d))
      { minarea := -1, p1 := fun _ => 1 }
    rw [this]
    rfl
  · simp only [List.mem_range, Int.toNat_natCast, and_true]
    constructor
    · rintro ⟨h1, _, _, h⟩
      refine ⟨h1.2, ?_, ?_⟩
      · obtain ⟨i, hi, he⟩ := Decomp.exists_combo (np := np) (d := d) (q := fun _ => (np : Int)) fun j _ =>
          Decomp.mem_factors.2 ⟨by omega, le_rfl, dvd_rfl⟩
        have := (h i hi).1
        rw [Finset.prod_congr rfl fun j hj => he j (Finset.mem_range.1 hj), Finset.prod_const, Finset.card_range] at this
        exact this
      · intro q hq
        obtain ⟨i, hi, he⟩ := Decomp.exists_combo (q := q) fun j hj => Decomp.procGrid_mem_factors hnp hq hj
        have h2 := (h i hi).2 (by
          rw [Finset.prod_congr rfl fun j hj => he j (Finset.mem_range.1 hj)]; exact hq.2)
        rw [Decomp.cost_eq_ghostArea] at h2
        have e : Decomp.ghostArea d g0 g1 (Decomp.comboFactor np d i) = Decomp.ghostArea d g0 g1 q := by
          unfold Decomp.ghostArea
          exact Finset.sum_congr rfl (fun j hj => by rw [he j (Finset.mem_range.mp hj)])
        rw [e] at h2
        exact h2
    · rintro ⟨h1, h2, h3⟩
      have hq0 := Decomp.choose_procGrid hnp hd fun j hj => (hg j hj).le
      refine ⟨⟨by omega, h1⟩, ?_, ?_, ?_⟩
      · intro i hi
        have h4 := h3 _ hq0
        rw [← Decomp.cost_eq_ghostArea] at h4
        refine le_trans ?_ h4
        unfold Decomp.cost
        have h5 := Finset.single_le_sum (f := fun j => Decomp.area d g0 g1 j * (1 + Decomp.choose np d g0 g1 j))
          (s := range d) (fun j hj => by
            have a1 := one_le_area hg j
            have a2 := hq0.1 j (Finset.mem_range.1 hj)
            positivity) (Finset.mem_range.2 hi)
        refine le_trans ?_ h5
        have a1 := one_le_area hg i
        have a2 := hq0.1 i hi
        show _ ≤ Decomp.area d g0 g1 i * (1 + Decomp.choose np d g0 g1 i)
        nlinarith
      · have : (((Decomp.factors np).length ^ d : Nat) : Int) ≤ ((np ^ d : Nat) : Int) := by
          exact_mod_cast Nat.pow_le_pow_left (factors_length_le np) d
        push_cast at this ⊢
        omega
      · intro i hi
        have hm : ∀ j ∈ range d, 0 < Decomp.comboFactor np d i j ∧ Decomp.comboFactor np d i j ≤ np := fun j hj => by
          have := Decomp.mem_factors.1 (Decomp.comboFactor_mem hnp hi (Finset.mem_range.1 hj))
          exact ⟨this.1, this.2.1⟩
        constructor
        · refine le_trans ?_ h2
          have := Finset.prod_le_prod (s := range d) (f := Decomp.comboFactor np d i) (g := fun _ => (np : Int))
            (fun j hj => (hm j hj).1.le) fun j hj => (hm j hj).2
          rw [Finset.prod_const, Finset.card_range] at this
          exact this
        · intro he
          rw [Decomp.cost_eq_ghostArea]
          exact h3 _ ⟨fun j hj => (hm j (Finset.mem_range.2 hj)).1, he⟩

/-! ## One rank -/

theorem mapM_ok {f : Nat → Outcome α} {v : Nat → α} {l : List Nat} (h : ∀ i ∈ l, f i = .ok (v i)) :
    l.mapM f = .ok (l.map v) :=
  (Exact.mapM (P := fun _ => True) l fun i hi => ⟨fun _ => h i hi, fun h => absurd trivial h⟩).1 fun _ _ => trivial

/-- C58: the limits of a piece are computed without overflow exactly when the global length fits. -/
theorem axisLimits_exact {g0 g1 p k : Int} (hg : g0 ≤ g1) (h0 : InInt g0) (h1 : InInt g1) (hp : 0 < p)
    (hpm : p ≤ intMax) (hk : 0 ≤ k) (hkp : k < p) :
    Exact (axisLimits g0 g1 p k) (Decomp.axisLimits g0 g1 p k) (g1 - g0 ≤ intMax) := by
  have hw0 : 0 ≤ g1 - g0 := by omega
  by_cases hw : g1 - g0 ≤ intMax
  · refine ⟨fun _ => ?_, fun h => absurd hw h⟩
    unfold axisLimits
    simp only [Outcome.bind_eq, Outcome.pure_eq]
    unfold Decomp.axisLimits
    have ht := tdiv_step hw0 hp
    have e : (g1 - g0).tdiv p = (g1 - g0) / p := Int.tdiv_eq_ediv_of_nonneg hw0
    have hr : g1 - g0 - p * ((g1 - g0) / p) = (g1 - g0) % p := by
      have := Int.mul_ediv_add_emod (g1 - g0) p; omega
    have hr0 := Int.emod_nonneg (g1 - g0) hp.ne'
    have hr1 := Int.emod_lt_of_pos (g1 - g0) hp
    rw [mul_comm] at ht
    have hkn : k * (g1 - g0).tdiv p + (g1 - g0).tdiv p ≤ p * (g1 - g0).tdiv p := by nlinarith
    have hkn0 : 0 ≤ k * (g1 - g0).tdiv p := by nlinarith
    rw [← e] at hr
    unfold InInt at h0 h1
    unfold intMax at hw hpm
    rw [chk_ok (by omega) (by unfold intMax; omega)]
    simp only [Outcome.ok_bind]
    rw [quot, if_neg hp.ne']
    generalize (g1 - g0).tdiv p = nom at *
    generalize (g1 - g0) % p = rem at *
    rw [chk_ok (by omega) (by unfold intMax; omega)]
    simp only [Outcome.ok_bind]
    rw [chk_ok (z := p * nom) (by omega) (by unfold intMax; omega)]
    simp only [Outcome.ok_bind, hr]
    rw [chk_ok (z := rem) (by omega) (by unfold intMax; omega)]
    simp only [Outcome.ok_bind]
    rw [chk_ok (z := k * nom) (by omega) (by unfold intMax; omega)]
    simp only [Outcome.ok_bind]
    rw [chk_ok (z := g0 + k * nom) (by omega) (by unfold intMax; omega)]
    simp only [Outcome.ok_bind]
    rw [chk_ok (z := g0 + k * nom + nom) (by omega) (by unfold intMax; omega)]
    simp only [Outcome.ok_bind]
    by_cases c1 : rem > 0
    · rw [if_pos c1, if_pos c1]
      by_cases c2 : k < rem
      · rw [if_pos c2, if_pos c2, chk_ok (z := g0 + k * nom + k) (by omega) (by unfold intMax; omega)]
        simp only [Outcome.ok_bind]
        rw [chk_ok (z := g0 + k * nom + k + nom) (by omega) (by unfold intMax; omega)]
        simp only [Outcome.ok_bind]
        rw [chk_ok (z := g0 + k * nom + k + nom + 1) (by omega) (by unfold intMax; omega)]
        rfl
      · rw [if_neg c2, if_neg c2]
        by_cases c3 : k = rem
        · rw [if_pos c3, if_pos c3, chk_ok (z := g0 + k * nom + k) (by omega) (by unfold intMax; omega)]
          simp only [Outcome.ok_bind]
          rw [chk_ok (z := g0 + k * nom + k + nom) (by omega) (by unfold intMax; omega)]
          rfl
        · rw [if_neg c3, if_neg c3, chk_ok (z := g0 + k * nom + rem) (by omega) (by unfold intMax; omega)]
          simp only [Outcome.ok_bind]
          rw [chk_ok (z := g0 + k * nom + rem + nom) (by omega) (by unfold intMax; omega)]
          rfl
    · rw [if_neg c1, if_neg c1]
  · refine ⟨fun h => absurd h hw, fun _ => ?_⟩
    unfold axisLimits
    have : chk (g1 - g0) = .ub := if_neg fun h => hw h.2
    rw [Outcome.bind_eq, this]
    rfl

theorem rankOf_ok {d : Nat} {sp k sp' k' : Nat → Int} (hs : ∀ j, j < d → 0 ≤ sp j) (hk : ∀ j, j < d → 0 ≤ k j)
    (hs' : ∀ j, j < d → sp' j = sp j) (hk' : ∀ j, j < d → k' j = k j)
    (h : ∑ j ∈ range d, sp j * k j ≤ intMax) : rankOf d sp' k' = .ok (∑ j ∈ range d, sp j * k j) := by
  have := exact_sumLoop (B := intMax) (fun n j => do
    let m ← chk (sp' j * k' j)
    chk (n + m)) (fun j => sp j * k j) (List.range d) (fun j hj => by
      have h1 := hs j (List.mem_range.1 hj)
      have h2 := hk j (List.mem_range.1 hj)
      positivity)
    (fun t ht j hj => by
      have h1 := hs j (List.mem_range.1 hj)
      have h2 := hk j (List.mem_range.1 hj)
      rw [hs' j (List.mem_range.1 hj), hk' j (List.mem_range.1 hj)]
      refine Exact.congr (Exact.bind (exact_chk _) fun _ => exact_chk _) (fun _ => rfl) ?_
      have : 0 ≤ sp j * k j := by positivity
      unfold InInt intMax
      generalize sp j * k j = z at *
      omega) 0 le_rfl (by decide)
  rw [zero_add, list_sum_range] at this
  exact this.1 h

theorem neighbours_ok {np d : Nat} {p : Nat → Int} (hp : Decomp.ProcGrid np d p) (hnp : (np : Int) ≤ 1073741824)
    {rank : Int} (h0 : 0 ≤ rank) (h1 : rank < np) {sp' p' pos' : Nat → Int}
    (hs' : ∀ j, j < d → sp' j = Decomp.sp d p j) (hp' : ∀ j, j < d → p' j = p j)
    (hpos' : ∀ j, j < d → pos' j = Decomp.pos d p rank j) {i : Nat} (hi : i < d) :
    neighbours d sp' p' pos' i = .ok (Decomp.below d p rank i, Decomp.above d p rank i) := by
  have hpos : ∀ j, j < d → 0 < p j := hp.1
  have hb := fun j hj => Decomp.pos_bounds hp h0 h1 (j := j) hj
  have hpi : p i ≤ np := by
    rw [← hp.2]; exact width_le_prod hpos hi
  have hbi := hb i hi
  have hpi0 := hpos i hi
  have hsp : ∀ j, j < d → 0 ≤ Decomp.sp d p j := fun j _ => (slice_pos hpos j).le
  have hsum : ∀ k : Nat → Int, InBox d p k → ∑ j ∈ range d, Decomp.sp d p j * k j < np := by
    intro k hk
    have := (encode_bounds hk).2
    rw [hp.2] at this
    unfold encode at this
    rw [Finset.sum_congr rfl fun j _ => mul_comm (k j) (slice d p j)] at this
    exact this
  unfold neighbours
  rw [hpos' i hi, hp' i hi]
  simp only [Outcome.bind_eq, Outcome.pure_eq]
  rw [chk_ok (by omega) (by unfold intMax; omega)]
  simp only [Outcome.ok_bind]
  rw [chk_ok (by omega) (by unfold intMax; omega)]
  simp only [Outcome.ok_bind]
  have hq : ∀ a : Int, 0 ≤ a → a ≤ 2147483647 → InInt (a.tdiv (p i)) := by
    intro a ha ha'
    have := tdiv_step ha hpi0
    unfold InInt
    omega
  rw [rmd, if_neg hpi0.ne', if_pos (hq _ (by omega) (by omega))]
  simp only [Outcome.ok_bind]
  have hbox : ∀ m : Int, 0 ≤ m → m < p i → InBox d p (fun j => if j = i then m else Decomp.pos d p rank j) := by
    intro m h1 h2 j hj
    beta_reduce
    split
    · rename_i h; subst h; exact ⟨h1, h2⟩
    · exact hb j hj
  have t1 : 0 ≤ (Decomp.pos d p rank i - 1 + p i).tmod (p i) ∧ (Decomp.pos d p rank i - 1 + p i).tmod (p i) < p i := by
    rw [Int.tmod_eq_emod_of_nonneg (by omega)]
    exact ⟨Int.emod_nonneg _ hpi0.ne', Int.emod_lt_of_pos _ hpi0⟩
  have t2 : 0 ≤ (Decomp.pos d p rank i + 1).tmod (p i) ∧ (Decomp.pos d p rank i + 1).tmod (p i) < p i := by
    rw [Int.tmod_eq_emod_of_nonneg (by omega)]
    exact ⟨Int.emod_nonneg _ hpi0.ne', Int.emod_lt_of_pos _ hpi0⟩
  have b1 := hbox _ t1.1 t1.2
  have b2 := hbox _ t2.1 t2.2
  rw [rankOf_ok hsp (fun j hj => (b1 j hj).1) hs' (fun j hj => by
    rw [hpos' j hj]) (by have := hsum _ b1; unfold intMax; omega)]
  simp only [Outcome.ok_bind]
  rw [chk_ok (by omega) (by unfold intMax; omega)]
  simp only [Outcome.ok_bind]
  rw [rmd, if_neg hpi0.ne', if_pos (hq _ (by omega) (by omega))]
  simp only [Outcome.ok_bind]
  rw [rankOf_ok hsp (fun j hj => (b2 j hj).1) hs' (fun j hj => by
    rw [hpos' j hj]) (by have := hsum _ b2; unfold intMax; omega)]
  rfl

theorem exactSizes_congr {g g' : Shape} (hd : g.dim = g'.dim) (h0 : ∀ j, j < g.dim → g.x0 j = g'.x0 j)
    (h1 : ∀ j, j < g.dim → g.x1 j = g'.x1 j) (hgh : g.ghosts = g'.ghosts) (hpos : 0 < g.dim) :
    exactSizes g = exactSizes g' := by
  have e0 : ∀ j, j < g.dim → g.s0 j = g'.s0 j := fun j hj => by unfold Shape.s0; rw [h0 j hj, hgh]
  have e1 : ∀ j, j < g.dim → g.s1 j = g'.s1 j := fun j hj => by unfold Shape.s1; rw [h1 j hj, hgh]
  have ex : ∀ j, g.sx j = g'.sx j := fun j => by
    unfold Shape.sx slice
    rw [← hd]
    exact Finset.prod_congr rfl fun k hk => by beta_reduce; rw [e0 k (mem_Ico.1 hk).2, e1 k (mem_Ico.1 hk).2]
  have ey : ∀ j, g.xx j = g'.xx j := fun j => by
    unfold Shape.xx slice
    rw [← hd]
    exact Finset.prod_congr rfl fun k hk => by beta_reduce; rw [h0 k (mem_Ico.1 hk).2, h1 k (mem_Ico.1 hk).2]
  unfold exactSizes Shape.cells Shape.nodes
  rw [ex 0, ey 0, e0 0 hpos, e1 0 hpos, h0 0 hpos, h1 0 hpos, ← hd]
  congr 1
  · exact List.map_congr_left fun j hj => e0 j (List.mem_range.1 hj)
  · exact List.map_congr_left fun j hj => e1 j (List.mem_range.1 hj)
  · exact List.map_congr_left fun j _ => ex j
  · exact List.map_congr_left fun j _ => ey j

/-- The values `setup()` is meant to store on a rank. -/
def exactSetup (d : Nat) (g0 g1 : Nat → Int) (ghosts : Int) (np : Nat) (rank : Int) : Setup :=
  let p := Decomp.choose np d g0 g1
  ⟨(List.range d).map p, (List.range d).map fun i => Decomp.axisLimits (g0 i) (g1 i) (p i) (Decomp.pos d p rank i),
    (List.range d).map fun i => (Decomp.below d p rank i, Decomp.above d p rank i),
    exactSizes (Decomp.localShape d g0 g1 ghosts np rank)⟩

theorem getD_range_map' {α : Type} (v : Nat → α) (a : α) {d j : Nat} (hj : j < d) :
    ((List.range d).map v).getD j a = v j := by
  simp [List.getD, List.getElem?_map, List.getElem?_range hj]

/-- C58: the whole of `setup()` on a rank that gets at least one node: the conditions under which nothing overflows. -/
theorem setup_exact {np d : Nat} {g0 g1 : Nat → Int} {ghosts : Int} (hnp : 0 < np) (hnp' : (np : Int) ≤ 1073741824)
    (hd : 0 < d) (hg : ∀ j, j < d → g0 j < g1 j) (hi0 : ∀ j, j < d → InInt (g0 j)) (hi1 : ∀ j, j < d → InInt (g1 j))
    {rank : Int} (h0 : 0 ≤ rank) (h1 : rank < np) (hwf : (Decomp.localShape d g0 g1 ghosts np rank).Wf) :
    Exact (setup d g0 g1 ghosts np rank) (exactSetup d g0 g1 ghosts np rank)
      ((np : Int) ^ d ≤ intMax ∧ (∀ q, Decomp.ProcGrid np d q → Decomp.ghostArea d g0 g1 q ≤ intMax) ∧
        (∀ j, j < d → g1 j - g0 j ≤ intMax) ∧
        (∀ j, j < d → InInt ((Decomp.localShape d g0 g1 ghosts np rank).x0 j - ghosts) ∧
          InInt ((Decomp.localShape d g0 g1 ghosts np rank).x1 j + ghosts)) ∧
        (Decomp.localShape d g0 g1 ghosts np rank).cells ≤ intMax) := by
  have hp := Decomp.choose_procGrid hnp hd fun j hj => (hg j hj).le
  have hpm : ∀ j, j < d → Decomp.choose np d g0 g1 j ≤ np := fun j hj => by
    have := width_le_prod hp.1 hj
    rwa [hp.2] at this
  have hsp : (List.range d).mapM (fun i => setup.product' ((List.range d).map (Decomp.choose np d g0 g1)) (after d i)) =
      .ok ((List.range d).map (Decomp.sp d (Decomp.choose np d g0 g1))) := by
    apply mapM_ok
    intro i _
    have hmem : ∀ j ∈ after d i, j < d := fun j hj => List.mem_range.1 (List.mem_filter.1 hj).1
    have := exact_prodLoop
      (fun p j => chk (p * ((List.range d).map (Decomp.choose np d g0 g1)).getD j 0)) (Decomp.choose np d g0 g1)
      (after d i) (fun j hj => by have := hp.1 j (hmem j hj); omega) (fun a ha j hj => by
        have e := getD_range_map (Decomp.choose np d g0 g1) (hmem j hj)
        rw [e]
        refine (exact_chk _).congr (fun _ => rfl) ?_
        have h1 := hp.1 j (hmem j hj)
        have := (le_mul_of_one_le ha (b := Decomp.choose np d g0 g1 j) (by omega)).1
        unfold InInt intMax
        omega) 1 le_rfl (by decide)
    rw [one_mul, after_prod] at this
    apply this.1
    have := slice_le_prod hp.1 i
    rw [hp.2] at this
    unfold intMax
    omega
  have hdig : digits d (fun j => .ok (((List.range d).map (Decomp.sp d (Decomp.choose np d g0 g1))).getD j 0))
      (fun _ q => .ok q) rank = .ok ((List.range d).map (Decomp.pos d (Decomp.choose np d g0 g1) rank)) := by
    apply digits_ok (r := Decomp.choose np d g0 g1) hp.1
    · intro j hj
      rw [getD_range_map _ hj]
      rfl
    · exact h0
    · rw [hp.2]; exact h1
    · unfold intMax; omega
    · intro j _; rfl
  unfold setup
  simp only [Outcome.bind_eq, Outcome.pure_eq]
  refine Exact.congr (Exact.bind (Q := ((∀ i ∈ List.range d, g1 i - g0 i ≤ intMax) ∧
      ((∀ j, j < d → InInt ((Decomp.localShape d g0 g1 ghosts np rank).x0 j - ghosts) ∧
          InInt ((Decomp.localShape d g0 g1 ghosts np rank).x1 j + ghosts)) ∧
        (Decomp.localShape d g0 g1 ghosts np rank).cells ≤ intMax)))
    (choose_exact hnp hd hg) fun _ => ?_) (fun _ => rfl) ?_
  · rw [hsp, Outcome.ok_bind, hdig, Outcome.ok_bind]
    refine Exact.bind (Exact.mapM (v := fun i => Decomp.axisLimits (g0 i) (g1 i) (Decomp.choose np d g0 g1 i)
      (Decomp.pos d (Decomp.choose np d g0 g1) rank i)) _ fun i hi => ?_) fun _ => ?_
    · have hi' := List.mem_range.1 hi
      have hb := Decomp.pos_bounds hp h0 h1 hi'
      have := hpm i hi'
      rw [getD_range_map _ hi', getD_range_map _ hi']
      exact axisLimits_exact (hg i hi').le (hi0 i hi') (hi1 i hi') (hp.1 i hi') (by unfold intMax; omega) hb.1 hb.2
    · rw [mapM_ok (v := fun i => (Decomp.below d (Decomp.choose np d g0 g1) rank i,
        Decomp.above d (Decomp.choose np d g0 g1) rank i)) fun i hi =>
        neighbours_ok hp hnp' h0 h1 (fun j hj => getD_range_map _ hj) (fun j hj => getD_range_map _ hj)
          (fun j hj => getD_range_map _ hj) (List.mem_range.1 hi), Outcome.ok_bind]
      have e : ∀ j, j < d → ((List.range d).map fun i => Decomp.axisLimits (g0 i) (g1 i) (Decomp.choose np d g0 g1 i)
          (Decomp.pos d (Decomp.choose np d g0 g1) rank i)).getD j (0, 0) =
          ((Decomp.localShape d g0 g1 ghosts np rank).x0 j, (Decomp.localShape d g0 g1 ghosts np rank).x1 j) :=
        fun j hj => getD_range_map' _ _ hj
      generalize hG : ({ dim := d, x0 := _, x1 := _, b0 := _, b1 := _, ghosts := ghosts } : Shape) = G
      have hGd : G.dim = d := by rw [← hG]
      have hGg : G.ghosts = ghosts := by rw [← hG]
      have hG0 : ∀ j, j < d → G.x0 j = (Decomp.localShape d g0 g1 ghosts np rank).x0 j := fun j hj => by
        rw [← hG]; exact congrArg Prod.fst (e j hj)
      have hG1 : ∀ j, j < d → G.x1 j = (Decomp.localShape d g0 g1 ghosts np rank).x1 j := fun j hj => by
        rw [← hG]; exact congrArg Prod.snd (e j hj)
      have hGw : G.Wf := ⟨by omega, fun j hj => by
        rw [hG0 j (by omega), hG1 j (by omega)]; exact hwf.side j (by rw [hGd] at hj; exact hj),
        by rw [hGg]; exact hwf.ghosts⟩
      have hsz : exactSizes G = exactSizes (Decomp.localShape d g0 g1 ghosts np rank) :=
        exactSizes_congr (by rw [hGd]; rfl) (fun j hj => hG0 j (by omega)) (fun j hj => hG1 j (by omega))
          (by rw [hGg]; rfl) (by omega)
      have hc : G.cells = (Decomp.localShape d g0 g1 ghosts np rank).cells := congrArg Sizes.cells hsz
      refine Exact.congr (Exact.bind (sizes_exact hGw) fun _ => Exact.ok) (fun _ => ?_) ?_
      · rw [hsz]; rfl
      · rw [hc, hGg, hGd, and_true]
        refine and_congr ?_ Iff.rfl
        refine forall_congr' fun j => forall_congr' fun hj => ?_
        rw [hG0 j hj, hG1 j hj]
  · simp only [List.mem_range]
    constructor
    · rintro ⟨⟨_, a, b⟩, c, e, f⟩
      exact ⟨a, b, c, e, f⟩
    · rintro ⟨a, b, c, e, f⟩
      exact ⟨⟨by unfold intMax; omega, a, b⟩, c, e, f⟩

/-! ## Element access -/

/-- The limits and the cell count of the box are representable: what `sizes_exact` leaves true of a grid that exists. -/
structure Fits (g : Shape) : Prop where
  wf : g.Wf
  lo : ∀ j, j < g.dim → InInt (g.x0 j - g.ghosts)
  hi : ∀ j, j < g.dim → InInt (g.x1 j + g.ghosts)
  cells : g.cells ≤ intMax

/-- A grid whose `setup()` returned has sizes that fit. -/
theorem fits_of_sizes {g : Shape} (hg : g.Wf) {s : Sizes} (h : sizes g = .ok s) : Fits g ∧ s = exactSizes g := by
  have he := sizes_exact hg
  by_cases hc : (∀ i, i < g.dim → InInt (g.x0 i - g.ghosts) ∧ InInt (g.x1 i + g.ghosts)) ∧ g.cells ≤ intMax
  · rw [he.1 hc] at h
    cases h
    exact ⟨⟨hg, fun j hj => (hc.1 j hj).1, fun j hj => (hc.1 j hj).2, hc.2⟩, rfl⟩
  · rw [he.2 hc] at h
    cases h

theorem nodes_le_cells {g : Shape} (hg : g.Wf) : g.nodes ≤ g.cells := by
  rw [Shape.cells_eq hg, Shape.nodes_eq hg]
  apply Finset.prod_le_prod
  · intro k hk; exact (Shape.xx_radix_pos hg k (Finset.mem_range.1 hk)).le
  · intro k hk
    have := hg.ghosts
    simp only [Shape.s1, Shape.s0]
    omega

theorem digits_position {g : Shape} (hf : Fits g) {i : Int} (h0 : 0 ≤ i) (h1 : i < g.nodes) :
    digits g.dim (fun j => .ok (g.xx j)) (fun j n => chk (n + g.x0 j)) i = .ok ((List.range g.dim).map (g.position i)) := by
  apply digits_ok (r := fun j => g.x1 j - g.x0 j) (Shape.xx_radix_pos hf.wf)
  · intro j _; rfl
  · exact h0
  · rw [← Shape.nodes_eq hf.wf]; exact h1
  · have := nodes_le_cells hf.wf
    have := hf.cells
    omega
  · intro j hj
    have hn := Shape.position_isNode hf.wf h0 h1 j hj
    have hl := hf.lo j hj
    have hh := hf.hi j hj
    have := hf.wf.ghosts
    unfold InInt at hl hh
    have e : digit (slice g.dim fun j => g.x1 j - g.x0 j) i j + g.x0 j = g.position i j := rfl
    rw [e]
    exact chk_ok (by omega) (by unfold intMax; omega)

/-- C58: `position(i)` of a node never overflows. -/
theorem position_ok {g : Shape} (hf : Fits g) {i : Int} (h0 : 0 ≤ i) (h1 : i < g.nodes) :
    position g i = .ok ((List.range g.dim).map (g.position i)) := digits_position hf h0 h1

theorem cell_term {g : Shape} (hf : Fits g) {y : Int} {j : Nat} (hj : j < g.dim) (h0 : g.s0 j ≤ y) (h1 : y < g.s1 j) :
    chk (y - g.s0 j) = .ok (y - g.s0 j) ∧ 0 ≤ (y - g.s0 j) * g.sx j ∧ (y - g.s0 j) * g.sx j ≤ g.cells := by
  have hr := Shape.sx_radix_pos hf.wf
  have hw := width_le_prod hr hj
  have ht := tailProd_le_prod hr j
  have hs : 0 < g.sx j := slice_pos hr j
  have hc := hf.cells
  rw [tailProd_step hj] at ht
  rw [← Shape.cells_eq hf.wf] at hw ht
  have ht' : (g.s1 j - g.s0 j) * g.sx j ≤ g.cells := ht
  unfold intMax at hc
  refine ⟨chk_ok (by omega) (by unfold intMax; omega), by have : 0 ≤ y - g.s0 j := by omega
                                                          positivity, ?_⟩
  refine le_trans ?_ ht'
  exact mul_le_mul_of_nonneg_right (by omega) hs.le

/-- C58: `operator()(int)` of a node never overflows. -/
theorem atNode_ok {g : Shape} (hf : Fits g) (bd : Build) {i : Int} (h0 : 0 ≤ i) (h1 : i < g.nodes) :
    atNode g bd i = .ok (g.atNode bd i) := by
  cases bd with
  | serial => rfl
  | mpi =>
    unfold atNode
    dsimp only
    rw [digits_position hf h0 h1]
    simp only [Outcome.bind_eq, Outcome.ok_bind]
    have hnode := Shape.position_isNode hf.wf h0 h1
    have hcell : g.IsCell (g.position i) := fun j hj => by
      have := hnode j hj; have := hf.wf.ghosts; omega
    have hterm := fun j hj => cell_term hf (y := g.position i j) (j := j) hj (hcell j hj).1 (hcell j hj).2
    have hsum := exact_sumLoop (B := intMax) (fun i' j => do
      let a ← chk (((List.range g.dim).map (g.position i)).getD j 0 - g.s0 j)
      let m ← chk (a * g.sx j)
      chk (i' + m)) (fun j => (g.position i j - g.s0 j) * g.sx j) (List.range g.dim)
      (fun j hj => (hterm j (List.mem_range.1 hj)).2.1) (fun t ht j hj => by
        have h := hterm j (List.mem_range.1 hj)
        have hc := hf.cells
        rw [getD_range_map _ (List.mem_range.1 hj)]
        simp only [Outcome.bind_eq]
        rw [h.1, Outcome.ok_bind]
        refine Exact.congr (Exact.bind (exact_chk _) fun _ => exact_chk _) (fun _ => rfl) ?_
        unfold intMax at hc
        unfold InInt intMax
        omega) 0 le_rfl (by decide)
    rw [zero_add, list_sum_range] at hsum
    have hb := (Shape.rawOffset_bounds hf.wf hcell).2
    have hc := hf.cells
    exact hsum.1 (by
      have : ∑ j ∈ range g.dim, (g.position i j - g.s0 j) * g.sx j = g.rawOffset (g.position i) := rfl
      rw [this]
      omega)

/-- Coordinates far from the ends of the range of `int`. -/
def Moderate (z : Int) : Prop := -536870912 ≤ z ∧ z ≤ 536870912

/-- C58: `check_boundary` does not overflow on moderate coordinates. -/
theorem checkBoundary_ok {bd : Build} {x x0 x1 : Int} {b0 b1 : BC} (hx : Moderate x) (h0 : Moderate x0)
    (h1 : Moderate x1) : checkBoundary bd x x0 x1 b0 b1 = .ok (MMSP.checkBoundary bd x x0 x1 b0 b1) := by
  unfold Moderate at hx h0 h1
  have c : ∀ z : Int, -2147483648 ≤ z ∧ z ≤ 2147483647 → chk z = .ok z := fun z h => if_pos h
  unfold checkBoundary MMSP.checkBoundary
  simp only [Outcome.bind_eq]
  split
  · split
    · rfl
    · split
      · rw [c _ (by omega), Outcome.ok_bind, c _ (by omega)]
      · split
        · rw [c _ (by omega), Outcome.ok_bind, c _ (by omega)]
        · rfl
  · split
    · split
      · exact c _ (by omega)
      · split
        · rw [c _ (by omega), Outcome.ok_bind, c _ (by omega)]
        · split
          · rw [c _ (by omega), Outcome.ok_bind, c _ (by omega), Outcome.ok_bind, c _ (by omega)]
          · rfl
    · rfl

/-- C58: `GRID(x)` (and `GRID[x0][x1]...`, which performs the same operations) never overflows, and the pointer never
leaves the array on the way, when the boundary conditions take `x` to a cell. -/
theorem atVec_ok {g : Shape} (hf : Fits g) (bd : Build) {x y : Nat → Int} (hx : ∀ j, j < g.dim → Moderate (x j))
    (h0 : ∀ j, j < g.dim → Moderate (g.x0 j)) (h1 : ∀ j, j < g.dim → Moderate (g.x1 j))
    (hy : ∀ j, j < g.dim → MMSP.checkBoundary bd (x j) (g.x0 j) (g.x1 j) (g.b0 j) (g.b1 j) = y j) (hc : g.IsCell y) :
    atVec g bd x = .ok (g.atVec bd x) := by
  have hterm := fun j hj => cell_term hf (y := y j) (j := j) hj (hc j hj).1 (hc j hj).2
  have hcl := hf.cells
  have hsum := exact_sumLoop (B := g.cells) (fun p j => subscript g bd p j (x j))
    (fun j => (y j - g.s0 j) * g.sx j) (List.range g.dim)
    (fun j hj => (hterm j (List.mem_range.1 hj)).2.1) (fun t ht j hj => by
      have hj' := List.mem_range.1 hj
      have h := hterm j hj'
      unfold intMax at hcl
      unfold subscript
      simp only [Outcome.bind_eq]
      rw [checkBoundary_ok (hx j hj') (h0 j hj') (h1 j hj'), Outcome.ok_bind, hy j hj', h.1, Outcome.ok_bind,
        chk_ok (by omega) (by unfold intMax; omega), Outcome.ok_bind]
      unfold advance
      constructor
      · intro h'; exact if_pos ⟨by omega, h'⟩
      · intro h'; exact if_neg fun h'' => h' h''.2) 0 le_rfl (by
        have := (Shape.rawOffset_bounds hf.wf hc)
        omega)
  rw [zero_add, list_sum_range] at hsum
  have hb := (Shape.rawOffset_bounds hf.wf hc).2
  have e : ∑ j ∈ range g.dim, (y j - g.s0 j) * g.sx j = g.rawOffset y := rfl
  rw [Shape.atVec_eq_raw bd hy, ← e]
  exact hsum.1 (by rw [e]; omega)

/-! ## Where it overflows -/

/-- C58: in three dimensions every MPI run with at least 1291 processes overflows in `setup()`, whatever the box. -/
theorem many_ranks_overflow {np : Nat} (h : 1291 ≤ np) {g0 g1 : Nat → Int} (hg : ∀ j, j < 3 → g0 j < g1 j) :
    choose np 3 g0 g1 = .ub := by
  apply (choose_exact (by omega) (by omega) hg).2
  rintro ⟨_, h2, _⟩
  have : (1291 : Int) ^ 3 ≤ (np : Int) ^ 3 := pow_le_pow_left₀ (by norm_num) (by exact_mod_cast h) 3
  unfold intMax at h2
  omega

/-- In two dimensions the same happens from 46341 processes on. -/
theorem many_ranks_overflow_2D {np : Nat} (h : 46341 ≤ np) {g0 g1 : Nat → Int} (hg : ∀ j, j < 2 → g0 j < g1 j) :
    choose np 2 g0 g1 = .ub := by
  apply (choose_exact (by omega) (by omega) hg).2
  rintro ⟨_, h2, _⟩
  have : (46341 : Int) ^ 2 ≤ (np : Int) ^ 2 := pow_le_pow_left₀ (by norm_num) (by exact_mod_cast h) 2
  unfold intMax at h2
  omega

/-- C58: 1290 processes are no problem for a moderate box: 100 × 100 × 100. -/
theorem ranks_1290 : ∃ p, choose 1290 3 (fun _ => 0) (fun _ => 100) = .ok p := by
  refine ⟨_, (choose_exact (by omega) (by omega) fun _ _ => by omega).1 ⟨by decide, by decide, ?_⟩⟩
  intro q hq
  have hb : ∀ j, j < 3 → q j ≤ 1290 := fun j hj => by
    have := width_le_prod hq.1 hj
    rw [hq.2] at this
    exact_mod_cast this
  unfold Decomp.ghostArea
  have : ∀ j ∈ range 3, (∏ k ∈ (range 3).erase j, ((100 : Int) - 0)) * (1 + q j) ≤ 10000 * 1291 := by
    intro j hj
    rw [Finset.prod_const, Finset.card_erase_of_mem hj, Finset.card_range]
    have := hb j (Finset.mem_range.1 hj)
    norm_num
    omega
  have := Finset.sum_le_sum this
  refine le_trans this ?_
  rw [Finset.sum_const, Finset.card_range]
  decide

/-- The box of the next three results: 2 × 30000 × 30000. -/
def slab (j : Nat) : Int := if j = 0 then 2 else 30000

/-- C58: 1.8 thousand million nodes are representable, and so is the decomposition that should be chosen, but the
ghost area of another candidate is not. -/
theorem slab_overflow : choose 3 3 (fun _ => 0) slab = .ub ∧
    Decomp.ghostArea 3 (fun _ => 0) slab (Decomp.choose 3 3 (fun _ => 0) slab) ≤ intMax ∧
    ∏ j ∈ range 3, slab j ≤ intMax := by
  decide +kernel

/-- With wrap-around arithmetic the wrong candidate wins: the axis of 2 nodes is cut into 3 pieces although cutting
another axis has a smaller ghost area; one rank has no nodes. -/
theorem slab_wraps : chooseWrap 3 3 (fun _ => 0) slab = [3, 1, 1] ∧
    (List.range 3).map (Decomp.choose 3 3 (fun _ => 0) slab) = [1, 1, 3] := by decide +kernel

/-- C58: a serial 46341 × 46341 grid cannot be set up; 46340 × 46340 can. -/
theorem square_limit :
    sizes ⟨2, fun _ => 0, fun _ => 46341, fun _ => .periodic, fun _ => .periodic, 0⟩ = .ub ∧
    (sizes ⟨2, fun _ => 0, fun _ => 46340, fun _ => .periodic, fun _ => .periodic, 0⟩).isOk = true := by
  decide +kernel

/-- C58: a mirror boundary of a box that starts at 2^30 overflows although the mirrored coordinate is in the box. -/
theorem mirror_overflow :
    checkBoundary .serial 1073741823 1073741824 1073741834 .mirror .mirror = .ub ∧
    MMSP.checkBoundary .serial 1073741823 1073741824 1073741834 .mirror .mirror = 1073741825 := by decide +kernel

/-- A case of the hypotheses of `setup_exact`: 6 processes, 30 × 10, ghost width 1, rank 4. -/
example : ∃ s, setup 2 (fun _ => 0) (fun j => if j = 0 then 30 else 10) 1 6 4 = .ok s ∧ s.p1 = [3, 2] ∧
    s.lim = [(20, 30), (0, 5)] ∧ s.nb = [(2, 0), (5, 5)] ∧ s.sizes.cells = 84 :=
  ⟨⟨[3, 2], [(20, 30), (0, 5)], [(2, 0), (5, 5)], ⟨[19, -1], [31, 6], [7, 1], [5, 1], 84, 50⟩⟩, by decide +kernel,
    rfl, rfl, rfl, rfl⟩

example : (Decomp.localShape 2 (fun _ => 0) (fun j => if j = 0 then 30 else 10) 1 6 4).Wf :=
  ⟨by decide, by decide +kernel, by decide⟩

/-- A case of the hypotheses of `atVec_ok`: wrapping around a corner of a 30 × 10 grid. -/
example : atVec ⟨2, fun _ => 0, fun j => if j = 0 then 30 else 10, fun _ => .periodic, fun _ => .periodic, 0⟩ .serial
    (fun j => if j = 0 then -1 else 10) = .ok 290 := by decide +kernel

example : Fits ⟨2, fun _ => 0, fun j => if j = 0 then 30 else 10, fun _ => .periodic, fun _ => .periodic, 0⟩ :=
  (fits_of_sizes ⟨by decide, by decide, by decide⟩
    (s := ⟨[0, 0], [30, 10], [10, 1], [10, 1], 300, 300⟩) (by decide +kernel)).1

end MMSP.Overflow
