import Verif.GridCopy
/-!
# Whole-grid operations: theorems

Specification vocabulary: `Same dim u v` (two grid objects agree in every member the code reads), `Contents m a l`
(object `a` owns a live block holding the cells `l`).
-/

namespace MMSP.GridCopy

variable {D T : Type}

/-- The members of two grids other than the data pointer agree (arrays below `dim`). -/
def Same (dim : Nat) (u v : Grid D) : Prop :=
  u.nodes = v.nodes ∧ u.cells = v.cells ∧ u.fields = v.fields ∧ u.ghosts = v.ghosts ∧
  ∀ i < dim, u.g0 i = v.g0 i ∧ u.g1 i = v.g1 i ∧ u.x0 i = v.x0 i ∧ u.x1 i = v.x1 i ∧ u.xx i = v.xx i ∧
    u.s0 i = v.s0 i ∧ u.s1 i = v.s1 i ∧ u.sx i = v.sx i ∧ u.b0 i = v.b0 i ∧ u.b1 i = v.b1 i ∧ u.dx i = v.dx i ∧
    u.p0 i = v.p0 i ∧ u.p1 i = v.p1 i ∧ u.sp i = v.sp i ∧ u.n0 i = v.n0 i ∧ u.n1 i = v.n1 i

/-- Grid object `a` owns a live block with exactly the cells `l`. -/
def Contents (m : Mem D T) (a : Nat) (l : List T) : Prop :=
  ∃ p, (m.grid a).data = some p ∧ m.blk p = some l

/-- No two grid objects own the same block, owned blocks are live, and fresh addresses are unused. -/
def Wf (m : Mem D T) : Prop :=
  (∀ a b p, (m.grid a).data = some p → (m.grid b).data = some p → a = b) ∧
  (∀ a p, (m.grid a).data = some p → ∃ l, m.blk p = some l ∧ (l.length : Int) = (m.grid a).cells) ∧
  (∀ p l, m.blk p = some l → p < m.next)

/-! ## swap -/

/-- Closed form of a partly finished exchange. -/
def mix (n : Nat) (u v : Grid D) : Grid D :=
  let pre {β : Type} (f g : Nat → β) : Nat → β := fun i => if i < n then g i else f i
  { data := v.data, nodes := v.nodes, cells := v.cells, fields := v.fields, ghosts := v.ghosts
    g0 := pre u.g0 v.g0, g1 := pre u.g1 v.g1, x0 := pre u.x0 v.x0, x1 := pre u.x1 v.x1
    xx := pre u.xx v.xx, s0 := pre u.s0 v.s0, s1 := pre u.s1 v.s1, sx := pre u.sx v.sx
    b0 := pre u.b0 v.b0, b1 := pre u.b1 v.b1, dx := pre u.dx v.dx, p0 := pre u.p0 v.p0
    p1 := pre u.p1 v.p1, sp := pre u.sp v.sp, n0 := pre u.n0 v.n0, n1 := pre u.n1 v.n1 }

theorem update_pre {β : Type} (n : Nat) (f g : Nat → β) :
    Function.update (fun i => if i < n then g i else f i) n (if n < n then f n else g n)
      = fun i => if i < n + 1 then g i else f i := by
  funext i
  by_cases h : i = n
  · subst h; simp
  · have : i < n + 1 ↔ i < n := by omega
    simp [Function.update, h, this]

theorem swapAxis_mix (n : Nat) (u v : Grid D) :
    swapAxis n (mix n u v) (mix n v u) = (mix (n + 1) u v, mix (n + 1) v u) := by
  simp only [swapAxis, mix, update_pre]

theorem swap_closed (dim : Nat) (m : Mem D T) {a b : Nat} (h : a ≠ b) :
    swap dim m a b = (m.setGrid a (mix dim (m.grid a) (m.grid b))).setGrid b (mix dim (m.grid b) (m.grid a)) := by
  unfold swap
  induction dim with
  | zero => simp [Mem.exchange, h, swapScalars, mix]
  | succ n ih =>
    rw [List.range_succ, List.foldl_append, ih]
    simp only [List.foldl_cons, List.foldl_nil, Mem.exchange, if_neg h]
    have ha : ((m.setGrid a (mix n (m.grid a) (m.grid b))).setGrid b (mix n (m.grid b) (m.grid a))).grid a
        = mix n (m.grid a) (m.grid b) := by simp [Mem.setGrid, Function.update, h]
    have hb : ((m.setGrid a (mix n (m.grid a) (m.grid b))).setGrid b (mix n (m.grid b) (m.grid a))).grid b
        = mix n (m.grid b) (m.grid a) := by simp [Mem.setGrid]
    rw [ha, hb, swapAxis_mix]
    simp only [Mem.setGrid]
    congr 1
    funext k
    simp only [Function.update]
    grind

theorem swap_self (dim : Nat) (m : Mem D T) (a : Nat) : swap dim m a a = m := by
  unfold swap
  induction dim with
  | zero => simp [Mem.exchange]
  | succ n ih => rw [List.range_succ, List.foldl_append, ih]; simp [Mem.exchange]

/-- **C27.** `A.swap(B)` exchanges the two grids completely: every member and the data; no cell is moved, no other object
is touched, and nothing is allocated or freed. Holds also for `A.swap(A)`. -/
theorem swap_correct (dim : Nat) (m : Mem D T) (a b : Nat) :
    let m' := swap dim m a b
    Same dim (m'.grid a) (m.grid b) ∧ Same dim (m'.grid b) (m.grid a) ∧
    (m'.grid a).data = (m.grid b).data ∧ (m'.grid b).data = (m.grid a).data ∧
    (∀ k, k ≠ a → k ≠ b → m'.grid k = m.grid k) ∧ m'.blk = m.blk ∧ m'.next = m.next := by
  intro m'
  by_cases h : a = b
  · subst h
    have : m' = m := swap_self dim m a
    rw [this]; simp [Same]
  · have e : m' = _ := swap_closed dim m h
    have ha : m'.grid a = mix dim (m.grid a) (m.grid b) := by rw [e]; simp [Mem.setGrid, Function.update, h]
    have hb : m'.grid b = mix dim (m.grid b) (m.grid a) := by rw [e]; simp [Mem.setGrid]
    refine ⟨?_, ?_, by rw [ha]; rfl, by rw [hb]; rfl, ?_, by rw [e]; rfl, by rw [e]; rfl⟩
    · rw [ha]; simp only [Same, mix, true_and]; intro i hi; simp [hi]
    · rw [hb]; simp only [Same, mix, true_and]; intro i hi; simp [hi]
    · intro k h1 h2; rw [e]; simp [Mem.setGrid, Function.update, h1, h2]

/-- Contents travel with the swap. -/
theorem swap_contents (dim : Nat) (m : Mem D T) (a b : Nat) {la lb : List T} (ha : Contents m a la)
    (hb : Contents m b lb) : Contents (swap dim m a b) a lb ∧ Contents (swap dim m a b) b la := by
  obtain ⟨-, -, h1, h2, -, h3, -⟩ := swap_correct dim m a b
  obtain ⟨p, p1, p2⟩ := ha
  obtain ⟨q, q1, q2⟩ := hb
  exact ⟨⟨q, by rw [h1, q1], by rw [h3, q2]⟩, ⟨p, by rw [h2, p1], by rw [h3, p2]⟩⟩

/-- **C27.** Swapping twice is the identity on the whole memory. -/
theorem swap_swap (dim : Nat) (m : Mem D T) (a b : Nat) : swap dim (swap dim m a b) a b = m := by
  by_cases h : a = b
  · subst h; rw [swap_self, swap_self]
  · rw [swap_closed dim _ h, swap_closed dim m h]
    have ha : ((m.setGrid a (mix dim (m.grid a) (m.grid b))).setGrid b (mix dim (m.grid b) (m.grid a))).grid a
        = mix dim (m.grid a) (m.grid b) := by simp [Mem.setGrid, Function.update, h]
    have hb : ((m.setGrid a (mix dim (m.grid a) (m.grid b))).setGrid b (mix dim (m.grid b) (m.grid a))).grid b
        = mix dim (m.grid b) (m.grid a) := by simp [Mem.setGrid]
    rw [ha, hb]
    have hm : ∀ u v : Grid D, mix dim (mix dim u v) (mix dim v u) = u := by
      intro u v
      cases u; cases v
      simp only [mix, Grid.mk.injEq, true_and]
      refine ⟨?_, ?_, ?_, ?_, ?_, ?_, ?_, ?_, ?_, ?_, ?_, ?_, ?_, ?_, ?_, ?_⟩ <;> funext i <;> split <;> rfl
    rw [hm, hm]
    simp only [Mem.setGrid]
    cases m
    simp only [Mem.mk.injEq, true_and]
    funext k
    simp only [Function.update]
    grind

theorem swap_wf (dim : Nat) (m : Mem D T) (a b : Nat) (h : Wf m) : Wf (swap dim m a b) := by
  by_cases hab : a = b
  · subst hab; rw [swap_self]; exact h
  · obtain ⟨h1, h2, h3, h4, h5, h6, h7⟩ := swap_correct dim m a b
    obtain ⟨w1, w2, w3⟩ := h
    have key : ∀ k, ∃ j, ((swap dim m a b).grid k).data = (m.grid j).data ∧
        ((swap dim m a b).grid k).cells = (m.grid j).cells ∧
        ((k = a ∧ j = b) ∨ (k = b ∧ j = a) ∨ (k ≠ a ∧ k ≠ b ∧ j = k)) := by
      intro k
      by_cases ka : k = a
      · exact ⟨b, by rw [ka, h3], by rw [ka]; exact h1.2.1, Or.inl ⟨ka, rfl⟩⟩
      · by_cases kb : k = b
        · exact ⟨a, by rw [kb, h4], by rw [kb]; exact h2.2.1, Or.inr (Or.inl ⟨kb, rfl⟩)⟩
        · exact ⟨k, by rw [h5 k ka kb], by rw [h5 k ka kb], Or.inr (Or.inr ⟨ka, kb, rfl⟩)⟩
    refine ⟨?_, ?_, ?_⟩
    · intro k l p hk hl
      obtain ⟨j, j1, -, j3⟩ := key k
      obtain ⟨i, i1, -, i3⟩ := key l
      have := w1 j i p (by rw [← j1]; exact hk) (by rw [← i1]; exact hl)
      grind
    · intro k p hk
      obtain ⟨j, j1, j2, -⟩ := key k
      rw [h6, j2]; exact w2 j p (by rw [← j1]; exact hk)
    · rw [h6, h7]; exact w3

/-! ## copy -/

theorem loadCell_ok {m : Mem D T} {a p : Nat} {l : List T} (h1 : (m.grid a).data = some p) (h2 : m.blk p = some l)
    {i : Nat} (hi : i < l.length) : loadCell m a i = .ok l[i] := by
  simp [loadCell, h1, h2, hi]

/-- One cell: the value arrives whatever the unspecified rest of the temporary is. -/
theorem fill_dec (c : Cell T) (hc : RoundTrips c) (junk : List Byte) {v : T} (hv : c.Valid v) {n : Nat}
    (hn : c.size v ≤ n) : (fill n junk (c.enc v)).bind c.dec = .ok (v, c.size v) := by
  obtain ⟨h1, h2⟩ := hc v hv
  simp only [fill, h1, if_pos hn, Outcome.ok_bind]
  exact h2 _

theorem fill_over (c : Cell T) (hc : RoundTrips c) (junk : List Byte) {v : T} (hv : c.Valid v) {n : Nat}
    (hn : n < c.size v) : fill n junk (c.enc v) = .ub := by
  obtain ⟨h1, -⟩ := hc v hv
  simp [fill, h1, hn]

theorem copyCell_ok (c : Cell T) (hc : RoundTrips c) (junk : List Byte) {m : Mem D T} {a b p q i : Nat} {la lb : List T}
    (ha : (m.grid a).data = some p) (hp : m.blk p = some la) (hb : (m.grid b).data = some q) (hq : m.blk q = some lb)
    (hia : i < la.length) (hib : i < lb.length) (hv : c.Valid lb[i]) (hs : c.size lb[i] ≤ c.size la[i]) :
    copyCell c junk m a b i = .ok (m.setBlk p (some (la.set i lb[i]))) := by
  have := fill_dec c hc junk hv hs
  simp only [copyCell, loadCell_ok ha hp hia, loadCell_ok hb hq hib, Outcome.ok_bind]
  cases hf : fill (c.size la[i]) junk (c.enc lb[i]) with
  | ub => simp [hf] at this
  | abort k => simp [hf] at this
  | ok buf =>
    rw [hf, Outcome.ok_bind] at this
    simp [this, storeCell, ha, hp, hia]

/-- State of the destination block when the first `n` cells have been copied. -/
def partly (n : Nat) (lb la : List T) : List T := lb.take n ++ la.drop n

theorem partly_set {lb la : List T} (h : lb.length = la.length) {n : Nat} (hn : n < lb.length) :
    (partly n lb la).set n lb[n] = partly (n + 1) lb la := by
  unfold partly
  rw [List.set_append_right _ _ (by simp)]
  simp only [List.length_take, Nat.min_eq_left hn.le]
  rw [List.drop_eq_getElem_cons (by omega : n < la.length), Nat.sub_self, List.set_cons_zero,
    List.take_succ_eq_append_getElem hn]
  simp only [List.append_assoc, List.cons_append, List.nil_append]

theorem partly_get {lb la : List T} (h : lb.length = la.length) {n : Nat} (hn : n < la.length) :
    (partly n lb la)[n]? = some la[n] := by
  unfold partly
  rw [List.getElem?_append_right (by simp)]
  simp [h, Nat.min_eq_left hn.le, hn]

theorem partly_length {lb la : List T} (h : lb.length = la.length) (n : Nat) : (partly n lb la).length = la.length := by
  simp [partly]; omega

/-- The copying loop between two different blocks. -/
theorem copyCells_loop (c : Cell T) (hc : RoundTrips c) (junk : List Byte) {a b p q : Nat} (hpq : p ≠ q)
    {la lb : List T} (hl : lb.length = la.length) (hv : ∀ x ∈ lb, c.Valid x) :
    ∀ (k n : Nat) (m : Mem D T), n + k = lb.length → (m.grid a).data = some p → m.blk p = some (partly n lb la) →
      (m.grid b).data = some q → m.blk q = some lb →
      copyCells c junk a b (List.range' n k) m =
        if ∀ i (h1 : i < lb.length) (h2 : i < la.length), n ≤ i → c.size lb[i] ≤ c.size la[i]
        then .ok (m.setBlk p (some lb)) else .ub := by
  intro k
  induction k with
  | zero =>
    intro n m hn ha hp hb hq
    have : partly n lb la = lb := by
      unfold partly; rw [List.take_of_length_le (by omega), List.drop_eq_nil_of_le (by omega), List.append_nil]
    rw [if_pos (by intro i h1 h2 h3; omega)]
    simp only [List.range'_zero, copyCells, Outcome.ok.injEq]
    rw [← this, ← hp]
    cases m; simp [Mem.setBlk]
  | succ k ih =>
    intro n m hn ha hp hb hq
    have hn1 : n < lb.length := by omega
    have hn2 : n < la.length := by omega
    have hlen := partly_length hl n
    have hget : (partly n lb la)[n]'(by omega) = la[n] := by
      have := partly_get hl hn2
      rwa [List.getElem?_eq_getElem (by omega), Option.some.injEq] at this
    rw [List.range'_succ]
    simp only [copyCells]
    by_cases hs : c.size lb[n] ≤ c.size la[n]
    · rw [copyCell_ok c hc junk ha hp hb hq (by omega) hn1 (hv _ (List.getElem_mem _)) (by rw [hget]; exact hs)]
      rw [Outcome.ok_bind, partly_set hl hn1,
        ih (n + 1) _ (by omega) (by simpa [Mem.setBlk] using ha) (by simp [Mem.setBlk]) (by simpa [Mem.setBlk] using hb)
          (by simp [Mem.setBlk, Function.update, Ne.symm hpq, hq])]
      have heq : (∀ i (h1 : i < lb.length) (h2 : i < la.length), n + 1 ≤ i → c.size lb[i] ≤ c.size la[i]) ↔
          (∀ i (h1 : i < lb.length) (h2 : i < la.length), n ≤ i → c.size lb[i] ≤ c.size la[i]) := by
        constructor
        · intro h i h1 h2 h3
          rcases Nat.eq_or_lt_of_le h3 with e | e
          · subst e; exact hs
          · exact h i h1 h2 e
        · intro h i h1 h2 h3; exact h i h1 h2 (by omega)
      by_cases hall : ∀ i (h1 : i < lb.length) (h2 : i < la.length), n ≤ i → c.size lb[i] ≤ c.size la[i]
      · rw [if_pos hall, if_pos (heq.mpr hall)]
        simp [Mem.setBlk]
      · rw [if_neg hall, if_neg (fun h => hall (heq.mp h))]
    · rw [if_neg (fun h => hs (h n hn1 hn2 le_rfl))]
      simp only [copyCell, loadCell_ok ha hp (by omega : n < (partly n lb la).length), loadCell_ok hb hq hn1,
        Outcome.ok_bind, hget]
      rw [fill_over c hc junk (hv _ (List.getElem_mem _)) (by omega)]
      rfl

/-- **C27.** `A.copy(B)` for two grids owning their storage: the outcome is decided by whether every source cell fits into a
temporary of the size of the freshly resized destination cell. If it does, `A` afterwards holds exactly the cells of `B`
(ghosts included) and all its members, `B` keeps object and cells, no other object and no block other than `A`'s old one
(freed) and new one is touched. If some source cell does not fit, the copy overflows the temporary. -/
theorem copy_correct (c : Cell T) (hc : RoundTrips c) (fresh : Int → T) (junk : List Byte) (dim : Nat) (m : Mem D T)
    (hm : Wf m) {a b : Nat} (hab : a ≠ b) {lb : List T} (hb : Contents m b lb) (hv : ∀ x ∈ lb, c.Valid x) :
    if ∀ x ∈ lb, c.size x ≤ c.size (fresh (m.grid b).fields) then
      ∃ m', copy c fresh junk dim m a b = .ok m' ∧ Same dim (m'.grid a) (m.grid b) ∧ Contents m' a lb ∧
        m'.grid b = m.grid b ∧ Contents m' b lb ∧ (∀ k, k ≠ a → m'.grid k = m.grid k) ∧
        (∀ p, (m.grid a).data ≠ some p → p < m.next → m'.blk p = m.blk p) ∧
        (∀ p, (m.grid a).data = some p → m'.blk p = none) ∧ Wf m'
    else copy c fresh junk dim m a b = .ub := by
  obtain ⟨w1, w2, w3⟩ := hm
  obtain ⟨q, hq1, hq2⟩ := hb
  have hlen : (lb.length : Int) = (m.grid b).cells := by
    obtain ⟨l, h1, h2⟩ := w2 b q hq1
    rw [hq2] at h1; cases h1; exact h2
  have hqn : q < m.next := w3 q lb hq2
  have hmain : ∀ (m1 : Mem D T), m1.grid b = m.grid b → m1.blk q = some lb → m1.next = m.next →
      let r := (allocData fresh (copyMembers dim m1 a b) a).bind fun m2 =>
        copyCells c junk a b (List.range (m2.grid a).cells.toNat) m2
      if ∀ x ∈ lb, c.size x ≤ c.size (fresh (m.grid b).fields) then
        ∃ m', r = .ok m' ∧ Same dim (m'.grid a) (m.grid b) ∧ (m'.grid a).data = some m.next ∧
          m'.next = m.next + 1 ∧ m'.blk = Function.update m1.blk m.next (some lb) ∧ (∀ k, k ≠ a → m'.grid k = m1.grid k)
      else r = .ub := by
    intro m1 e1 e2 e3 r
    have hcells : ((copyMembers dim m1 a b).grid a).cells = (m.grid b).cells := by
      simp [copyMembers, Mem.setGrid, e1]
    have hfields : ((copyMembers dim m1 a b).grid a).fields = (m.grid b).fields := by
      simp [copyMembers, Mem.setGrid, e1]
    have hbs : (copyMembers dim m1 a b).grid b = m.grid b := by
      simp [copyMembers, Mem.setGrid, Function.update, Ne.symm hab, e1]
    have hr : r = copyCells c junk a b (List.range lb.length)
        { next := m.next + 1
          blk := Function.update m1.blk m.next (some (List.replicate lb.length (fresh (m.grid b).fields)))
          grid := Function.update (copyMembers dim m1 a b).grid a
            { (copyMembers dim m1 a b).grid a with data := some m.next } } := by
      have hn : (copyMembers dim m1 a b).next = m.next := by simp [copyMembers, Mem.setGrid, e3]
      have hk : (copyMembers dim m1 a b).blk = m1.blk := by simp [copyMembers, Mem.setGrid]
      simp only [r, allocData, hcells, ← hlen, hn, hk, hfields]
      rw [if_neg (by omega)]
      simp
    have hloop := copyCells_loop c hc junk (a := a) (b := b) (p := m.next) (q := q) (by omega)
      (la := List.replicate lb.length (fresh (m.grid b).fields)) (lb := lb) (by simp) hv lb.length 0
      { next := m.next + 1
        blk := Function.update m1.blk m.next (some (List.replicate lb.length (fresh (m.grid b).fields)))
        grid := Function.update (copyMembers dim m1 a b).grid a
          { (copyMembers dim m1 a b).grid a with data := some m.next } }
      (by omega) (by simp) (by simp [partly]) (by simp [Function.update, Ne.symm hab, hbs, hq1])
      (by simp only; rw [Function.update_of_ne (by omega), e2])
    have hfit : (∀ i (h1 : i < lb.length) (h2 : i < (List.replicate lb.length (fresh (m.grid b).fields)).length), 0 ≤ i →
        c.size lb[i] ≤ c.size (List.replicate lb.length (fresh (m.grid b).fields))[i]) ↔
        (∀ x ∈ lb, c.size x ≤ c.size (fresh (m.grid b).fields)) := by
      constructor
      · intro h x hx
        obtain ⟨i, hi, rfl⟩ := List.mem_iff_getElem.mp hx
        have := h i hi (by simpa using hi) (Nat.zero_le _)
        rwa [List.getElem_replicate] at this
      · intro h i h1 h2 _
        simpa using h _ (List.getElem_mem h1)
    rw [List.range_eq_range', hloop] at hr
    by_cases hall : ∀ x ∈ lb, c.size x ≤ c.size (fresh (m.grid b).fields)
    · rw [if_pos hall]
      rw [if_pos (hfit.mpr hall)] at hr
      refine ⟨_, hr, ?_, by simp [Mem.setBlk], by simp [Mem.setBlk], by simp [Mem.setBlk], ?_⟩
      · simp only [Same, Mem.setBlk, Function.update_self, hcells, hfields]
        simp only [copyMembers, Mem.setGrid, Function.update_self, e1, true_and]
        intro i hi; simp [hi]
      · intro k hk; simp [Mem.setBlk, Function.update, hk, copyMembers, Mem.setGrid]
    · rw [if_neg hall]
      rw [if_neg (fun h => hall (hfit.mp h))] at hr
      exact hr
  have finish : ∀ (m1 : Mem D T), dropData m a = .ok m1 → m1.grid b = m.grid b → m1.blk q = some lb → m1.next = m.next →
      (∀ k, k ≠ a → m1.grid k = m.grid k) →
      (∀ p, (m.grid a).data ≠ some p → m1.blk p = m.blk p) → (∀ p, (m.grid a).data = some p → m1.blk p = none) →
      if ∀ x ∈ lb, c.size x ≤ c.size (fresh (m.grid b).fields) then
      ∃ m', copy c fresh junk dim m a b = .ok m' ∧ Same dim (m'.grid a) (m.grid b) ∧ Contents m' a lb ∧
        m'.grid b = m.grid b ∧ Contents m' b lb ∧ (∀ k, k ≠ a → m'.grid k = m.grid k) ∧
        (∀ p, (m.grid a).data ≠ some p → p < m.next → m'.blk p = m.blk p) ∧
        (∀ p, (m.grid a).data = some p → m'.blk p = none) ∧ Wf m'
      else copy c fresh junk dim m a b = .ub := by
    intro m1 hd e1 e2 e3 e4 e5 e6
    have h := hmain m1 e1 e2 e3
    have hcopy : copy c fresh junk dim m a b = (allocData fresh (copyMembers dim m1 a b) a).bind fun m2 =>
        copyCells c junk a b (List.range (m2.grid a).cells.toNat) m2 := by
      simp only [copy, hd, Outcome.ok_bind]
    by_cases hall : ∀ x ∈ lb, c.size x ≤ c.size (fresh (m.grid b).fields)
    · rw [if_pos hall]
      simp only [if_pos hall] at h
      obtain ⟨m', h1, h2, h3, h4, h5, h6⟩ := h
      have hgb : m'.grid b = m.grid b := by rw [h6 b (Ne.symm hab), e1]
      refine ⟨m', by rw [hcopy]; exact h1, h2, ⟨_, h3, by rw [h5]; simp⟩, hgb,
        ⟨q, by rw [hgb, hq1], by rw [h5, Function.update_of_ne (by omega), e2]⟩,
        fun k hk => by rw [h6 k hk, e4 k hk], ?_, ?_, ?_, ?_, ?_⟩
      · intro p hp hpn
        rw [h5, Function.update_of_ne (by omega), e5 p hp]
      · intro p hp
        have hpn : p < m.next := by
          obtain ⟨l, k1, -⟩ := w2 a p hp
          exact w3 p l k1
        rw [h5, Function.update_of_ne (by omega), e6 p hp]
      · intro k l p hk hl
        by_cases ka : k = a
        · by_cases la : l = a
          · rw [ka, la]
          · rw [ka, h3] at hk; cases hk
            rw [h6 l la, e4 l la] at hl
            obtain ⟨x, x1, -⟩ := w2 l _ hl
            exact absurd (w3 _ _ x1) (by omega)
        · by_cases la : l = a
          · rw [la, h3] at hl; cases hl
            rw [h6 k ka, e4 k ka] at hk
            obtain ⟨x, x1, -⟩ := w2 k _ hk
            exact absurd (w3 _ _ x1) (by omega)
          · rw [h6 k ka, e4 k ka] at hk
            rw [h6 l la, e4 l la] at hl
            exact w1 k l p hk hl
      · intro k p hk
        by_cases ka : k = a
        · subst ka
          rw [h3] at hk; cases hk
          exact ⟨lb, by rw [h5]; simp, by rw [h2.2.1, hlen]⟩
        · rw [h6 k ka, e4 k ka] at hk
          obtain ⟨l, x1, x2⟩ := w2 k p hk
          have hpn := w3 _ _ x1
          refine ⟨l, ?_, by rw [h6 k ka, e4 k ka]; exact x2⟩
          rw [h5, Function.update_of_ne (by omega), e5 p ?_]
          · exact x1
          · intro hap; exact ka (w1 _ _ _ hk hap)
      · intro p l hp
        rw [h5] at hp; rw [h4]
        by_cases e : p = m.next
        · omega
        · rw [Function.update_of_ne e] at hp
          by_cases hap : (m.grid a).data = some p
          · rw [e6 p hap] at hp; cases hp
          · rw [e5 p hap] at hp
            have := w3 p l hp; omega
    · rw [if_neg hall]
      simp only [if_neg hall] at h
      rw [hcopy]; exact h
  cases had : (m.grid a).data with
  | none =>
    have := finish m (by simp [dropData, had]) rfl hq2 rfl (fun _ _ => rfl) (fun _ _ => rfl) (by simp [had])
    simpa [had] using this
  | some p =>
    obtain ⟨l, hl, -⟩ := w2 a p had
    have hpq : p ≠ q := by
      intro e; subst e; exact hab (w1 a b p had hq1)
    have := finish ((m.setBlk p none).setGrid a { m.grid a with data := none }) (by simp [dropData, had, hl])
      (by simp [Mem.setGrid, Mem.setBlk, Function.update, Ne.symm hab])
      (by simp [Mem.setGrid, Mem.setBlk, Function.update, Ne.symm hpq, hq2]) (by simp [Mem.setGrid, Mem.setBlk])
      (fun k hk => by simp [Mem.setGrid, Mem.setBlk, Function.update, hk])
      (fun p' hp' => by
        have : p' ≠ p := by intro e; subst e; exact hp' had
        simp [Mem.setGrid, Mem.setBlk, Function.update, this])
      (fun p' hp' => by
        rw [had] at hp'; cases hp'
        simp [Mem.setGrid, Mem.setBlk])
    simpa [had] using this

/-- **C27.** For fixed-size cells (`int`, `double`, `scalar<T>` ...) the copy never overflows. -/
theorem copy_prim (k : Codec T) (fresh : Int → T) (junk : List Byte) (dim : Nat) (m : Mem D T) (hm : Wf m) {a b : Nat}
    (hab : a ≠ b) {lb : List T} (hb : Contents m b lb) :
    ∃ m', copy (primCell k) fresh junk dim m a b = .ok m' ∧ Same dim (m'.grid a) (m.grid b) ∧ Contents m' a lb ∧
      m'.grid b = m.grid b ∧ Contents m' b lb := by
  have h := copy_correct (primCell k) (primCell_roundTrips k) fresh junk dim m hm hab hb (fun _ _ => trivial)
  rw [if_pos (fun x _ => by simp [primCell])] at h
  obtain ⟨m', h1, h2, h3, h4, h5, -⟩ := h
  exact ⟨m', h1, h2, h3, h4, h5⟩

/-- **C27.** Grids of vectors: `resize` gives the destination cells `fields` entries, so the copy succeeds exactly when no
source vector is longer than `fields` and overflows the temporary otherwise. -/
theorem copy_vector (k : Codec T) (hk : 0 < k.width) (fresh : Int → List T) (hf : ∀ n, 0 ≤ n → (fresh n).length = n.toNat)
    (junk : List Byte) (dim : Nat) (m : Mem D (List T)) (hm : Wf m) {a b : Nat} (hab : a ≠ b) {lb : List (List T)}
    (hb : Contents m b lb) (hv : ∀ x ∈ lb, x.length < 2 ^ 31) (hfields : 0 ≤ (m.grid b).fields) :
    ((∀ x ∈ lb, (x.length : Int) ≤ (m.grid b).fields) →
      ∃ m', copy (arrayCell k) fresh junk dim m a b = .ok m' ∧ Same dim (m'.grid a) (m.grid b) ∧ Contents m' a lb ∧
        m'.grid b = m.grid b ∧ Contents m' b lb) ∧
    ((∃ x ∈ lb, (m.grid b).fields < (x.length : Int)) → copy (arrayCell k) fresh junk dim m a b = .ub) := by
  have h := copy_correct (arrayCell k) (vectorCell_roundTrips k) fresh junk dim m hm hab hb hv
  have hsz : ∀ x : List T, (arrayCell k).size x ≤ (arrayCell k).size (fresh (m.grid b).fields) ↔
      (x.length : Int) ≤ (m.grid b).fields := by
    intro x
    simp only [arrayCell, hf _ hfields, Nat.add_le_add_iff_left, Nat.mul_le_mul_right_iff hk]
    omega
  constructor
  · intro hall
    rw [if_pos (fun x hx => (hsz x).mpr (hall x hx))] at h
    obtain ⟨m', h1, h2, h3, h4, h5, -⟩ := h
    exact ⟨m', h1, h2, h3, h4, h5⟩
  · rintro ⟨x, hx, hlt⟩
    rwa [if_neg (fun hall => absurd ((hsz x).mp (hall x hx)) (by omega))] at h

/-- **C27 (negative part).** Grids of sparse cells: `resize` leaves the destination empty, so copying a grid with any
non-empty cell overflows the four-byte temporary. -/
theorem copy_sparse_overflow (k : Codec T) (hk : 0 < k.width) (junk : List Byte) (dim : Nat) (m : Mem D (List T)) (hm : Wf m)
    {a b : Nat} (hab : a ≠ b) {lb : List (List T)} (hb : Contents m b lb) (hv : ∀ x ∈ lb, x.length < 2 ^ 31)
    (hne : ∃ x ∈ lb, x ≠ []) : copy (arrayCell k) (fun _ => []) junk dim m a b = .ub := by
  have h := copy_correct (arrayCell k) (vectorCell_roundTrips k) (fun _ => []) junk dim m hm hab hb hv
  obtain ⟨x, hx, hxe⟩ := hne
  rwa [if_neg] at h
  intro hall
  have := hall x hx
  simp only [arrayCell, List.length_nil, Nat.zero_mul, Nat.add_le_add_iff_left] at this
  have : 0 < x.length * k.width := Nat.mul_pos (List.length_pos_of_ne_nil hxe) hk
  omega

theorem copyCells_self (c : Cell T) (hc : RoundTrips c) (junk : List Byte) {a p : Nat} {v : T} (hv : c.Valid v) {n : Nat} :
    ∀ (is : List Nat) (m : Mem D T), (∀ i ∈ is, i < n) → (m.grid a).data = some p →
      m.blk p = some (List.replicate n v) → copyCells c junk a a is m = .ok m := by
  intro is
  induction is with
  | nil => intro m _ _ _; rfl
  | cons i is ih =>
    intro m hi ha hp
    have hin : i < (List.replicate n v).length := by simpa using hi i (by simp)
    have h := copyCell_ok c hc junk ha hp ha hp hin hin (by simpa using hv) le_rfl
    have hset : (List.replicate n v).set i (List.replicate n v)[i] = List.replicate n v := List.set_getElem_self _
    have hm : m.setBlk p (some (List.replicate n v)) = m := by
      cases m; simp only [Mem.setBlk, Mem.mk.injEq, true_and, and_true]
      simp only at hp
      rw [← hp]; simp
    rw [hset, hm] at h
    simp only [copyCells, h, Outcome.ok_bind]
    exact ih m (fun j hj => hi j (by simp [hj])) ha hp

/-- **C27 (negative part).** `A.copy(A)` throws the data away: every cell holds the freshly resized value afterwards. -/
theorem copy_self (c : Cell T) (hc : RoundTrips c) (fresh : Int → T) (junk : List Byte) (dim : Nat) (m : Mem D T) (hm : Wf m)
    {a : Nat} {l : List T} (ha : Contents m a l) (hv : c.Valid (fresh (m.grid a).fields)) :
    ∃ m', copy c fresh junk dim m a a = .ok m' ∧
      Contents m' a (List.replicate l.length (fresh (m.grid a).fields)) := by
  obtain ⟨w1, w2, w3⟩ := hm
  obtain ⟨q, hq1, hq2⟩ := ha
  have hlen : (l.length : Int) = (m.grid a).cells := by
    obtain ⟨l', h1, h2⟩ := w2 a q hq1
    rw [hq2] at h1; cases h1; exact h2
  simp only [copy, dropData, hq1, hq2, Outcome.ok_bind]
  generalize hm1 : copyMembers dim ((m.setBlk q none).setGrid a { m.grid a with data := none }) a a = m1
  have hc1 : (m1.grid a).cells = (m.grid a).cells := by rw [← hm1]; simp [copyMembers, Mem.setGrid]
  have hf1 : (m1.grid a).fields = (m.grid a).fields := by rw [← hm1]; simp [copyMembers, Mem.setGrid]
  simp only [allocData, hc1, hf1]
  rw [if_neg (by omega), Outcome.ok_bind]
  have hcn : (m.grid a).cells.toNat = l.length := by omega
  simp only [Function.update_self, hcn]
  refine ⟨_, copyCells_self c hc junk hv (n := l.length) (p := m1.next) _ _ ?_ ?_ ?_, ?_⟩
  · intro i hi; simpa using hi
  · simp
  · simp
  · exact ⟨m1.next, by simp, by simp⟩

/-- **C27 (negative part).** The free function `copy(GRID1, GRID2)` overwrites its *second* argument. -/
theorem freeCopy_overwrites_second (k : Codec T) (fresh : Int → T) (junk : List Byte) (dim : Nat) (m : Mem D T) (hm : Wf m)
    {x y : Nat} (hxy : x ≠ y) {lx : List T} (hx : Contents m x lx) :
    ∃ m', freeCopy (primCell k) fresh junk dim m x y = .ok m' ∧ Contents m' x lx ∧ Contents m' y lx := by
  obtain ⟨m', h1, -, h3, -, h5⟩ := copy_prim k fresh junk dim m hm (Ne.symm hxy) hx
  exact ⟨m', h1, h5, h3⟩

/-! ## Same-type assignment and the copy constructor -/

/-- **C47 (negative).** After `A = B` for grids of the same type the two objects share one block: a write through `A` is
seen through `B`, and destroying both is undefined behaviour. -/
theorem assign_shares (m : Mem D T) {a b : Nat} (hab : a ≠ b) {l : List T} (hb : Contents m b l) {i : Nat}
    (hi : i < l.length) (v : T) :
    (∃ m', storeCell (assign m a b) a i v = .ok m' ∧ loadCell m' b i = .ok v) ∧
    (dropData (assign m a b) a).bind (fun m => dropData m b) = .ub := by
  obtain ⟨q, h1, h2⟩ := hb
  constructor
  · refine ⟨(assign m a b).setBlk q (some (l.set i v)), ?_, ?_⟩
    · simp [storeCell, assign, Mem.setGrid, h1, h2, hi]
    · simp [loadCell, assign, Mem.setGrid, Mem.setBlk, Function.update, Ne.symm hab, h1, hi]
  · simp [dropData, assign, Mem.setGrid, Mem.setBlk, Function.update, Ne.symm hab, h1, h2]

/-- Grid `v` has the layout `setup` gives on this rank, with arbitrary boundary conditions and spacings. -/
def LaidOut (one : D) (bd : Build) (dim np : Nat) (rank : Int) (v : Grid D) : Prop :=
  (bd = .serial → v.ghosts = 0) ∧
  Same dim v { setup one bd dim np rank v with b0 := v.b0, b1 := v.b1, dx := v.dx }

/-- **C48.** The copy constructor reproduces layout, boundary conditions and spacing, leaves the source alone, and gives
every cell of the new grid the freshly resized value: the source's cells are *not* copied. -/
theorem copyCtor_correct (one : D) (fresh : Int → T) (bd : Build) (dim np : Nat) (rank : Int) (m : Mem D T) (hm : Wf m)
    {a b : Nat} (hab : a ≠ b) {l : List T} (hb : Contents m b l) (hl : LaidOut one bd dim np rank (m.grid b)) :
    ∃ m', copyCtor one fresh bd dim np rank m a b = .ok m' ∧ Same dim (m'.grid a) (m.grid b) ∧
      m'.grid b = m.grid b ∧ Contents m' b l ∧
      Contents m' a (List.replicate l.length (fresh (m.grid b).fields)) := by
  obtain ⟨w1, w2, w3⟩ := hm
  obtain ⟨q, hq1, hq2⟩ := hb
  have hlen : (l.length : Int) = (m.grid b).cells := by
    obtain ⟨l', h1, h2⟩ := w2 b q hq1
    rw [hq2] at h1; cases h1; exact h2
  have hqn : q < m.next := w3 q l hq2
  obtain ⟨hser, hsame⟩ := hl
  have hgh : keptGhosts bd (m.grid b).ghosts = (m.grid b).ghosts := by
    cases bd
    · exact (hser rfl).symm
    · rfl
  have hcell : (setup one bd dim np rank (m.grid b)).cells = (m.grid b).cells := hsame.2.1.symm
  have hcell' : (setup one bd dim np rank { m.grid a with
      fields := (m.grid b).fields, g0 := (m.grid b).g0, g1 := (m.grid b).g1, ghosts := (m.grid b).ghosts }).cells
      = (m.grid b).cells := by rw [← hcell]; rfl
  have hfield' : (setup one bd dim np rank { m.grid a with
      fields := (m.grid b).fields, g0 := (m.grid b).g0, g1 := (m.grid b).g1, ghosts := (m.grid b).ghosts }).fields
      = (m.grid b).fields := rfl
  simp only [copyCtor, hgh, allocData, Mem.setGrid, Function.update_self, hcell', hfield']
  rw [if_neg (by omega), Outcome.ok_bind]
  have hcn : (m.grid b).cells.toNat = l.length := by omega
  refine ⟨_, rfl, ?_, ?_, ?_, ?_⟩
  · simp only [Function.update_self]
    obtain ⟨h1, h2, h3, h4, h5⟩ := hsame
    refine ⟨h1.symm, rfl, rfl, rfl, ?_⟩
    intro i hi
    obtain ⟨k1, k2, k3, k4, k5, k6, k7, k8, k9, k10, k11, k12, k13, k14, k15, k16⟩ := h5 i hi
    exact ⟨rfl, rfl, k3.symm, k4.symm, k5.symm, k6.symm, k7.symm, k8.symm, rfl, rfl, rfl, k12.symm, k13.symm, k14.symm,
      k15.symm, k16.symm⟩
  · simp [Function.update, Ne.symm hab]
  · refine ⟨q, by simp [Function.update, Ne.symm hab, hq1], ?_⟩
    simp only
    rw [Function.update_of_ne (by omega), hq2]
  · exact ⟨m.next, by simp, by simp [hcn]⟩

/-! ## Concrete cases meeting the hypotheses -/

/-- A one-dimensional serial grid of `n` nodes with `f` fields owning block `p`. -/
def sampleGrid (p : Nat) (n f : Int) : Grid Nat :=
  { setup 1 .serial 1 1 0
      { data := some p, nodes := 0, cells := 0, fields := f, ghosts := 0, g0 := fun _ => 0, g1 := fun _ => n
        x0 := fun _ => 0, x1 := fun _ => 0, xx := fun _ => 0, s0 := fun _ => 0, s1 := fun _ => 0, sx := fun _ => 0
        b0 := fun _ => .periodic, b1 := fun _ => .periodic, dx := fun _ => 0, p0 := fun _ => 0, p1 := fun _ => 0
        sp := fun _ => 0, n0 := fun _ => 0, n1 := fun _ => 0 } with dx := fun _ => 7, b0 := fun _ => .dirichlet }

/-- Grid 0 has three one-field cells, grid 1 two cells with two fields; every other object is empty. -/
def sampleMem : Mem Nat (List Byte) where
  next := 2
  blk := fun p => if p = 0 then some [[1], [2], [3]] else if p = 1 then some [[4, 5], [6, 7]] else none
  grid := fun a => if a = 0 then sampleGrid 0 3 1 else if a = 1 then sampleGrid 1 2 2
    else { sampleGrid 0 0 0 with data := none }

theorem sampleMem_wf : Wf sampleMem := by
  have h0 : (sampleMem.grid 0).cells = 3 := by decide
  have h1 : (sampleMem.grid 1).cells = 2 := by decide
  refine ⟨?_, ?_, ?_⟩
  · intro a b p ha hb
    simp only [sampleMem] at ha hb
    split_ifs at ha hb <;> simp_all [sampleGrid, setup]
  · intro a p ha
    by_cases e0 : a = 0
    · subst e0
      have : p = 0 := by simpa [sampleMem, sampleGrid, setup, eq_comm] using ha
      subst this
      exact ⟨_, rfl, by rw [h0]; rfl⟩
    · by_cases e1 : a = 1
      · subst e1
        have : p = 1 := by simpa [sampleMem, sampleGrid, setup, eq_comm] using ha
        subst this
        exact ⟨_, rfl, by rw [h1]; rfl⟩
      · simp [sampleMem, e0, e1] at ha
  · intro p l h
    simp only [sampleMem] at h ⊢
    split_ifs at h <;> omega

example : Contents sampleMem 1 [[4, 5], [6, 7]] := ⟨1, by decide, by decide⟩

/-- The hypotheses of `copy_vector` are met by a grid with different size and fields than its target. -/
example : ∃ m', copy (arrayCell byteCodec) (fun n => List.replicate n.toNat 9) [8, 8] 1 sampleMem 0 1 = .ok m' ∧
    Contents m' 0 [[4, 5], [6, 7]] := by
  obtain ⟨m', h1, -, h3, -⟩ := (copy_vector byteCodec (by decide) (fun n => List.replicate n.toNat 9) (by simp) [8, 8] 1
    sampleMem sampleMem_wf (by decide : (0 : Nat) ≠ 1) (lb := [[4, 5], [6, 7]]) ⟨1, by decide, by decide⟩ (by decide)
    (by decide)).1 (by decide)
  exact ⟨m', h1, h3⟩

/-- `swap` really moves something. -/
example : Contents (swap 1 sampleMem 0 1) 0 [[4, 5], [6, 7]] ∧ ((swap 1 sampleMem 0 1).grid 0).fields = 2 :=
  ⟨(swap_contents 1 sampleMem 0 1 (la := [[1], [2], [3]]) ⟨0, by decide, by decide⟩ ⟨1, by decide, by decide⟩).1, by decide⟩

/-- Sparse cells (here items of one byte): the overflow happens. -/
example : copy (arrayCell byteCodec) (fun _ => []) [] 1 sampleMem 0 1 = .ub :=
  copy_sparse_overflow byteCodec (by decide) [] 1 sampleMem sampleMem_wf (by decide)
    (lb := [[4, 5], [6, 7]]) ⟨1, by decide, by decide⟩ (by decide) ⟨[4, 5], by decide, by decide⟩

/-- The copy constructor on a grid whose spacing and boundary condition differ from the defaults. -/
example : LaidOut 1 .serial 1 1 0 (sampleMem.grid 1) := by
  refine ⟨by decide, ?_⟩
  simp only [Same]
  decide

end MMSP.GridCopy
