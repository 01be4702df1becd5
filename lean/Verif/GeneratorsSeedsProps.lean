import Verif.GeneratorsSeeds
import Verif.GeneratorsVoronoi
import Mathlib.Tactic.FieldSimp
/-!
# Properties C80 and C81: seeds from random numbers, files and honeycombs
-/

namespace MMSP.Generators

open MMSP.Tessellate (Seed whileLoop bind_ok)

/-! ## Coordinates -/

theorem setSeed_at {s : Seed} {d j : Nat} {a : Int} (hd : d < 3) (hj : j < 3) : (setSeed s d a).at j = if j = d then a else s.at j := by
  rcases (by omega : d = 0 ∨ d = 1 ∨ d = 2) with rfl | rfl | rfl <;> rcases (by omega : j = 0 ∨ j = 1 ∨ j = 2) with rfl | rfl | rfl <;> rfl

theorem seed_ext {s t : Seed} (h : ∀ j, j < 3 → s.at j = t.at j) : s = t := by
  obtain ⟨a, b, c⟩ := s
  obtain ⟨a', b', c'⟩ := t
  have h0 : a = a' := h 0 (by omega)
  have h1 : b = b' := h 1 (by omega)
  have h2 : c = c' := h 2 (by omega)
  rw [h0, h1, h2]

/-- The seed with the given coordinates, zero where there is no axis. -/
def seedOf (dim : Nat) (f : Nat → Int) : Seed := ⟨if 0 < dim then f 0 else 0, if 1 < dim then f 1 else 0, if 2 < dim then f 2 else 0⟩

theorem seedOf_at (dim : Nat) (f : Nat → Int) {j : Nat} (hj : j < 3) : (seedOf dim f).at j = if j < dim then f j else 0 := by
  rcases (by omega : j = 0 ∨ j = 1 ∨ j = 2) with rfl | rfl | rfl <;> rfl

theorem seedOf_congr {dim : Nat} {f f' : Nat → Int} (h : ∀ d, d < dim → f d = f' d) : seedOf dim f = seedOf dim f' :=
  seed_ext fun j hj => by
    rw [seedOf_at dim f hj, seedOf_at dim f' hj]
    split_ifs with c
    · exact h j c
    · rfl

/-- Entries beyond the dimension. -/
def Padded (dim : Nat) (s : Seed) : Prop := ∀ j, dim ≤ j → j < 3 → s.at j = 0

theorem seedOf_padded (dim : Nat) (f : Nat → Int) : Padded dim (seedOf dim f) := fun j h hj => by rw [seedOf_at dim f hj, if_neg (by omega)]

theorem fold_set {dim : Nat} (hdim : dim ≤ 3) (f : Nat → Int) {s : Seed} (hs : Padded dim s) :
    (List.range dim).foldl (fun s d => setSeed s d (f d)) s = seedOf dim f := by
  have key : ∀ k, k ≤ dim → ∀ j, j < 3 → ((List.range k).foldl (fun s d => setSeed s d (f d)) s).at j = if j < k then f j else s.at j := by
    intro k
    induction k with
    | zero => intro _ j _; rfl
    | succ k ih =>
      intro hk j hj
      rw [List.range_succ, List.foldl_append, List.foldl_cons, List.foldl_nil, setSeed_at (by omega) hj, ih (by omega) j hj]
      by_cases h1 : j = k
      · subst h1; rw [if_pos rfl, if_pos (by omega)]
      · rw [if_neg h1]
        by_cases h2 : j < k
        · rw [if_pos h2, if_pos (by omega)]
        · rw [if_neg h2, if_neg (by omega)]
  refine seed_ext fun j hj => ?_
  rw [key dim le_rfl j hj, seedOf_at dim f hj]
  split_ifs with c
  · rfl
  · exact hs j (by omega) hj

/-! ## Random seeds -/

/-- **C80.** Random seeds: as many as asked for, the coordinates drawn one after the other. -/
theorem poissonSeeds_eq {dim : Nat} (hdim : dim ≤ 3) (g0 g1 : Nat → Int) (nseeds : Nat) (draw : Nat → Int → Int) :
    poissonSeeds dim g0 g1 nseeds draw = (List.range nseeds).map fun i => seedOf dim fun d => g0 d + draw (dim * i + d) (g1 d - g0 d - 1) := by
  unfold poissonSeeds
  have key : ∀ n, ∃ s, Padded dim s ∧ (List.range n).foldl (fun (st : List Seed × Seed) i =>
      ((st.1 ++ [(List.range dim).foldl (fun s d => setSeed s d (g0 d + draw (dim * i + d) (g1 d - g0 d - 1))) st.2],
        (List.range dim).foldl (fun s d => setSeed s d (g0 d + draw (dim * i + d) (g1 d - g0 d - 1))) st.2) : List Seed × Seed)) ([], ⟨0, 0, 0⟩) =
      ((List.range n).map fun i => seedOf dim fun d => g0 d + draw (dim * i + d) (g1 d - g0 d - 1), s) := by
    intro n
    induction n with
    | zero => exact ⟨⟨0, 0, 0⟩, fun j _ hj => by rcases (by omega : j = 0 ∨ j = 1 ∨ j = 2) with rfl | rfl | rfl <;> rfl, rfl⟩
    | succ n ih =>
      obtain ⟨s, hs, e⟩ := ih
      rw [List.range_succ, List.foldl_append, e, List.foldl_cons, List.foldl_nil]
      dsimp only
      rw [fold_set hdim (fun d => g0 d + draw (dim * n + d) (g1 d - g0 d - 1)) hs]
      exact ⟨_, seedOf_padded dim _, by rw [List.map_append]; rfl⟩
  obtain ⟨s, -, e⟩ := key nseeds
  exact congrArg Prod.fst e

/-- **C80.** If `randInt(n)` returns numbers from 0 to `n`, all random seeds are nodes of the whole grid. -/
theorem poissonSeeds_inBox {dim : Nat} (hdim : dim ≤ 3) {g0 g1 : Nat → Int} (hs : ∀ d, d < dim → g0 d < g1 d) (nseeds : Nat) {draw : Nat → Int → Int}
    (hdraw : ∀ k n, 0 ≤ n → 0 ≤ draw k n ∧ draw k n ≤ n) :
    (poissonSeeds dim g0 g1 nseeds draw).length = nseeds ∧ ∀ s ∈ poissonSeeds dim g0 g1 nseeds draw, Tessellate.InBox dim g0 g1 s := by
  rw [poissonSeeds_eq hdim]
  refine ⟨by simp, fun s hs' j hj => ?_⟩
  obtain ⟨i, -, rfl⟩ := List.mem_map.1 hs'
  have := hs j hj
  have := hdraw (dim * i + j) (g1 j - g0 j - 1) (by omega)
  rw [seedOf_at dim _ (by omega), if_pos hj]
  omega

/-- **C80.** So the serial tessellation with random seeds does not fail the assertion that seeds are inside: it returns or executes undefined behaviour (`distances_end`). -/
theorem random_end {dim : Nat} (hdim : dim = 2 ∨ dim = 3) {x0 x1 : Nat → Int} (hs : ∀ d, d < dim → x0 d < x1 d) (nseeds : Nat) {draw : Nat → Int → Int}
    (hdraw : ∀ k n, 0 ≤ n → 0 ≤ draw k n ∧ draw k n ≤ n) :
    ∃ enough, ∀ fuel, enough ≤ fuel → distances dim x0 x1 (poissonSeeds dim x0 x1 nseeds draw) fuel = .ub ∨
      ∃ st, distances dim x0 x1 (poissonSeeds dim x0 x1 nseeds draw) fuel = .ok (some st) :=
  distances_end hdim hs (poissonSeeds_inBox (by omega) hs nseeds hdraw).2

example : poissonSeeds 2 (fun _ => 0) (fun _ => 8) 2 (fun k n => (k : Int) % (n + 1)) = [⟨0, 1, 0⟩, ⟨2, 3, 0⟩] := by decide

/-! ## Reading -/

/-- What the reader makes of the number `v` on axis `d`. -/
def scaled (g0 g1 : Nat → Int) (d : Nat) (v : ℚ) : Int :=
  let q := (g0 d : ℚ) + ((g1 d - g0 d - 1 : Int) : ℚ) * v
  if 0 ≤ q then ⌊q⌋ else ⌈q⌉

/-- A number the reader accepts. -/
def Legible (g0 g1 : Nat → Int) (d : Nat) (v : ℚ) : Prop := v ≤ 10001 / 10000 ∧ -2 ^ 31 ≤ scaled g0 g1 d v ∧ scaled g0 g1 d v < 2 ^ 31

section
variable {dim : Nat} {x0 x1 g0 g1 : Nat → Int}

theorem readCoord_ok {r : Reading} {d : Nat} {v : ℚ} {stream : Stream} (h : r.stream.read r.s = (stream, some v)) (hv : Legible g0 g1 d v) :
    readCoord g0 g1 r d = .ok { r with stream := stream, s := some v, seed := setSeed r.seed d (scaled g0 g1 d v) } := by
  unfold readCoord
  rw [h]
  dsimp only
  rw [if_neg (by have := hv.1; exact not_lt.2 this)]
  unfold toInt
  dsimp only
  have h2 := hv.2
  unfold scaled at h2 ⊢
  dsimp only at h2 ⊢
  rw [if_pos h2, Outcome.ok_bind]

theorem foldlM_range_succ {β : Type} (f : β → Nat → Outcome β) (k : Nat) (b : β) :
    (List.range (k + 1)).foldlM f b = ((List.range k).foldlM f b).bind fun c => f c k := by
  rw [List.range_succ, List.foldlM_append]
  show Outcome.bind _ _ = _
  congr 1
  funext c
  rw [List.foldlM_cons]
  cases f c k <;> rfl

/-- `k` coordinates from one row of the file. -/
theorem readRow_prefix (hdim : dim ≤ 3) {row rest : List ℚ} (hrow : row.length = dim) {white : Bool} {r : Reading} (hr : r.stream = ⟨row ++ rest, white, true⟩)
    (hleg : ∀ d, d < dim → Legible g0 g1 d (row.getD d 0)) : ∀ k, k ≤ dim →
    ∃ s seed, (List.range k).foldlM (readCoord g0 g1) r = .ok ⟨⟨row.drop k ++ rest, white, decide (k = 0) || (white || !(row.drop k ++ rest).isEmpty)⟩, s, seed, r.seeds⟩ ∧
      (0 < k → s = some (row.getD (k - 1) 0)) ∧ ∀ j, j < 3 → seed.at j = if j < k then scaled g0 g1 j (row.getD j 0) else r.seed.at j := by
  intro k
  induction k with
  | zero =>
    intro _
    obtain ⟨st, s, seed, seeds⟩ := r
    obtain rfl : st = ⟨row ++ rest, white, true⟩ := hr
    exact ⟨s, seed, rfl, fun h => absurd h (Nat.not_lt_zero _), fun j _ => rfl⟩
  | succ k ih =>
    intro hk
    obtain ⟨s, seed, e, -, h2⟩ := ih (by omega)
    have hlt : k < row.length := by omega
    have hdrop : row.drop k = row.getD k 0 :: row.drop (k + 1) := by
      rw [List.drop_eq_getElem_cons hlt]; simp [hlt]
    rw [foldlM_range_succ, e, Outcome.ok_bind]
    rw [readCoord_ok (v := row.getD k 0) (stream := ⟨row.drop (k + 1) ++ rest, white, white || !(row.drop (k + 1) ++ rest).isEmpty⟩)
      (by
        unfold Stream.read
        dsimp only
        rw [hdrop]
        simp) (hleg k (by omega))]
    refine ⟨some (row.getD k 0), setSeed seed k (scaled g0 g1 k (row.getD k 0)), by simp, fun _ => rfl, fun j hj => ?_⟩
    rw [setSeed_at (by omega) hj]
    by_cases h1 : j = k
    · subst h1; rw [if_pos rfl, if_pos (by omega)]
    · rw [if_neg h1, h2 j hj]
      by_cases h3 : j < k
      · rw [if_pos h3, if_pos (by omega)]
      · rw [if_neg h3, if_neg (by omega)]

/-- Without numbers left the coordinates come from the last number read. -/
theorem readEnd_prefix (hdim : dim ≤ 3) {white : Bool} {v : ℚ} {seed : Seed} {seeds : List Seed} (hleg : ∀ d, d < dim → Legible g0 g1 d v) : ∀ k, k ≤ dim →
    ∃ seed', (List.range k).foldlM (readCoord g0 g1) ⟨⟨[], white, true⟩, some v, seed, seeds⟩ = .ok ⟨⟨[], white, decide (k = 0)⟩, some v, seed', seeds⟩ ∧
      ∀ j, j < 3 → seed'.at j = if j < k then scaled g0 g1 j v else seed.at j := by
  intro k
  induction k with
  | zero => intro _; exact ⟨seed, rfl, fun j _ => rfl⟩
  | succ k ih =>
    intro hk
    obtain ⟨seed', e, h2⟩ := ih (by omega)
    rw [foldlM_range_succ, e, Outcome.ok_bind]
    rw [readCoord_ok (v := v) (stream := ⟨[], white, false⟩) (by
      unfold Stream.read
      by_cases hc : k = 0 <;> simp [hc]) (hleg k (by omega))]
    refine ⟨setSeed seed' k (scaled g0 g1 k v), by simp, fun j hj => ?_⟩
    rw [setSeed_at (by omega) hj]
    by_cases h1 : j = k
    · subst h1; rw [if_pos rfl, if_pos (by omega)]
    · rw [if_neg h1, h2 j hj]
      by_cases h3 : j < k
      · rw [if_pos h3, if_pos (by omega)]
      · rw [if_neg h3, if_neg (by omega)]

/-- The seed of a row of the file. -/
def rowSeed (dim : Nat) (g0 g1 : Nat → Int) (row : List ℚ) : Seed := seedOf dim fun d => scaled g0 g1 d (row.getD d 0)

/-- The seeds of a list that a rank keeps. -/
def kept (dim : Nat) (x0 x1 : Nat → Int) (l : List Seed) : List Seed :=
  l.filter fun s => (List.range dim).all fun d => !(decide (s.at d < x0 d) || decide (s.at d ≥ x1 d))

theorem mem_kept {l : List Seed} {s : Seed} : s ∈ kept dim x0 x1 l ↔ s ∈ l ∧ Tessellate.InBox dim x0 x1 s := by
  unfold kept
  rw [List.mem_filter]
  refine and_congr_right fun _ => ?_
  simp only [List.all_eq_true, List.mem_range, Bool.not_eq_true', Bool.or_eq_false_iff, decide_eq_false_iff_not, not_lt, ge_iff_le, not_le]
  rfl

theorem keep_one (r : Reading) : (if (List.range dim).all fun d => !(decide (r.seed.at d < x0 d) || decide (r.seed.at d ≥ x1 d)) then { r with seeds := r.seeds ++ [r.seed] } else r) =
    { r with seeds := r.seeds ++ kept dim x0 x1 [r.seed] } := by
  unfold kept
  rw [List.filter_cons]
  split_ifs <;> simp

/-- One pass of the loop on a full row. -/
theorem readSeed_row (hpos : 0 < dim) (hdim : dim ≤ 3) {row rest : List ℚ} (hrow : row.length = dim) {white : Bool} {s : Option ℚ} {seed : Seed} {seeds : List Seed} (hp : Padded dim seed)
    (hleg : ∀ d, d < dim → Legible g0 g1 d (row.getD d 0)) :
    readSeed dim x0 x1 g0 g1 ⟨⟨row ++ rest, white, true⟩, s, seed, seeds⟩ =
      .ok (some ⟨⟨rest, white, white || !rest.isEmpty⟩, some (row.getD (dim - 1) 0), rowSeed dim g0 g1 row, seeds ++ kept dim x0 x1 [rowSeed dim g0 g1 row]⟩) := by
  obtain ⟨s', seed', e, h1, h2⟩ := readRow_prefix hdim hrow (r := ⟨⟨row ++ rest, white, true⟩, s, seed, seeds⟩) rfl hleg dim le_rfl
  unfold readSeed
  rw [e, Outcome.ok_bind, keep_one]
  have hs : seed' = rowSeed dim g0 g1 row := seed_ext fun j hj => by
    rw [h2 j hj, rowSeed, seedOf_at dim _ hj]
    split_ifs with c
    · rfl
    · exact hp j (by omega) hj
  rw [h1 hpos, hs, ← hrow, List.drop_length, List.nil_append]
  simp only [show decide (row.length = 0) = false from decide_eq_false (by omega), Bool.false_or]

/-- One pass without numbers left. -/
theorem readSeed_end (hpos : 0 < dim) (hdim : dim ≤ 3) {white : Bool} {v : ℚ} {seed : Seed} {seeds : List Seed} (hp : Padded dim seed) (hleg : ∀ d, d < dim → Legible g0 g1 d v) :
    readSeed dim x0 x1 g0 g1 ⟨⟨[], white, true⟩, some v, seed, seeds⟩ =
      .ok (some ⟨⟨[], white, false⟩, some v, seedOf dim (fun d => scaled g0 g1 d v), seeds ++ kept dim x0 x1 [seedOf dim fun d => scaled g0 g1 d v]⟩) := by
  obtain ⟨seed', e, h2⟩ := readEnd_prefix (white := white) (seed := seed) (seeds := seeds) hdim hleg dim le_rfl
  unfold readSeed
  rw [e, Outcome.ok_bind, keep_one]
  have hs : seed' = seedOf dim (fun d => scaled g0 g1 d v) := seed_ext fun j hj => by
    rw [h2 j hj, seedOf_at dim _ hj]
    split_ifs with c
    · rfl
    · exact hp j (by omega) hj
  rw [hs, show decide (dim = 0) = false from decide_eq_false (by omega)]

theorem kept_append (a b : List Seed) : kept dim x0 x1 (a ++ b) = kept dim x0 x1 a ++ kept dim x0 x1 b := List.filter_append ..

/-- The last number of the file. -/
def lastOf (dim : Nat) (rows : List (List ℚ)) : ℚ := (rows.getLastD []).getD (dim - 1) 0

/-- The seed made of nothing but the last number. -/
def phantom (dim : Nat) (g0 g1 : Nat → Int) (rows : List (List ℚ)) : Seed := seedOf dim fun d => scaled g0 g1 d (lastOf dim rows)

theorem readLoop (hpos : 0 < dim) (hdim : dim ≤ 3) (white : Bool) : ∀ (rows : List (List ℚ)), (∀ row ∈ rows, row.length = dim ∧ ∀ d, d < dim → Legible g0 g1 d (row.getD d 0)) →
    (∀ d, d < dim → Legible g0 g1 d (lastOf dim rows)) → rows ≠ [] → ∀ (s : Option ℚ) (seed : Seed) (seeds : List Seed), Padded dim seed → ∀ fuel, rows.length + 1 ≤ fuel →
    ∃ r, whileLoop (fun r => r.stream.good) (readSeed dim x0 x1 g0 g1) fuel ⟨⟨rows.flatten, white, true⟩, s, seed, seeds⟩ = .ok (some r) ∧
      r.seeds = seeds ++ kept dim x0 x1 (rows.map (rowSeed dim g0 g1)) ++ if white then kept dim x0 x1 [phantom dim g0 g1 rows] else [] := by
  intro rows
  induction rows with
  | nil => intro _ _ h; exact absurd rfl h
  | cons row rows ih =>
    intro hrows hlast _ s seed seeds hp fuel hfuel
    obtain ⟨fuel, rfl⟩ : ∃ f, fuel = f + 1 := ⟨fuel - 1, by simp at hfuel; omega⟩
    obtain ⟨hr, hleg⟩ := hrows row List.mem_cons_self
    rw [List.flatten_cons, whileLoop, if_pos rfl, readSeed_row hpos hdim hr hp hleg, Outcome.ok_bind]
    dsimp only
    cases rows with
    | nil =>
      have hl : lastOf dim [row] = row.getD (dim - 1) 0 := rfl
      cases white with
      | false =>
        refine ⟨_, Tessellate.while_false (by rfl), ?_⟩
        simp
      | true =>
        obtain ⟨fuel, rfl⟩ : ∃ f, fuel = f + 1 := ⟨fuel - 1, by simp at hfuel; omega⟩
        rw [whileLoop, if_pos rfl]
        have := readSeed_end (x0 := x0) (x1 := x1) (white := true) (seeds := seeds ++ kept dim x0 x1 [rowSeed dim g0 g1 row]) hpos hdim (seedOf_padded dim _) (fun d hd => hlast d hd)
          (seed := rowSeed dim g0 g1 row)
        rw [hl] at this
        simp only [List.flatten_nil, Bool.true_or]
        rw [this, Outcome.ok_bind]
        refine ⟨_, Tessellate.while_false (by rfl), ?_⟩
        simp [phantom, hl]
    | cons row' rows =>
      have hne : (row' :: rows).flatten.isEmpty = false := by
        have := (hrows row' (by simp)).1
        cases row' with
        | nil => simp at this; omega
        | cons a l => rfl
      rw [hne]
      have hl : lastOf dim (row :: row' :: rows) = lastOf dim (row' :: rows) := rfl
      obtain ⟨r, e1, e2⟩ := ih (fun x hx => hrows x (List.mem_cons_of_mem _ hx)) (by rwa [hl] at hlast) (by simp) (some (row.getD (dim - 1) 0)) (rowSeed dim g0 g1 row)
        (seeds ++ kept dim x0 x1 [rowSeed dim g0 g1 row]) (seedOf_padded dim _) fuel (by simp at hfuel ⊢; omega)
      refine ⟨r, by simpa using e1, ?_⟩
      rw [e2]
      unfold phantom
      rw [hl, List.map_cons (l := row' :: rows), List.append_assoc seeds, ← kept_append]
      rfl

/-- **C80.** What the reader of `generators.cpp` makes of a file of rows: each row gives its seed; if white space follows the last number, one more seed
appears, all of whose coordinates come from that number. Seeds of other ranks are dropped. -/
theorem seedsFromFile_spec (hpos : 0 < dim) (hdim : dim ≤ 3) (white : Bool) {rows : List (List ℚ)} (hne : rows ≠ [])
    (hrows : ∀ row ∈ rows, row.length = dim ∧ ∀ d, d < dim → Legible g0 g1 d (row.getD d 0)) (hlast : ∀ d, d < dim → Legible g0 g1 d (lastOf dim rows))
    {fuel : Nat} (hfuel : rows.length + 1 ≤ fuel) :
    seedsFromFile dim x0 x1 g0 g1 ⟨(dim : ℚ) :: rows.flatten, white, true⟩ fuel =
      .ok (some (kept dim x0 x1 (rows.map (rowSeed dim g0 g1)) ++ if white then kept dim x0 x1 [phantom dim g0 g1 rows] else [])) := by
  have hflat : rows.flatten.isEmpty = false := by
    cases rows with
    | nil => exact absurd rfl hne
    | cons row rows =>
      have := (hrows row (by simp)).1
      cases row with
      | nil => simp at this; omega
      | cons a l => rfl
  unfold seedsFromFile
  have hread : (⟨(dim : ℚ) :: rows.flatten, white, true⟩ : Stream).read none = (⟨rows.flatten, white, true⟩, some (dim : ℚ)) := by
    unfold Stream.read
    simp [hflat]
  rw [hread]
  dsimp only
  rw [if_neg (by simp)]
  obtain ⟨r, e1, e2⟩ := readLoop (x0 := x0) (x1 := x1) hpos hdim white rows hrows hlast hne none ⟨0, 0, 0⟩ [] (fun j _ hj => by
    rcases (by omega : j = 0 ∨ j = 1 ∨ j = 2) with rfl | rfl | rfl <;> rfl) fuel hfuel
  rw [e1, Outcome.ok_bind]
  show Outcome.ok (some r.seeds) = _
  rw [e2, List.nil_append]

/-- **C80.** A file with nothing but the dimension and a newline: the reader uses an uninitialised number. -/
theorem seedsFromFile_empty (hpos : 0 < dim) (white : Bool) {fuel : Nat} (hfuel : 1 ≤ fuel) :
    seedsFromFile dim x0 x1 g0 g1 ⟨[(dim : ℚ)], white, true⟩ fuel = if white then .ub else .ok (some []) := by
  obtain ⟨fuel, rfl⟩ : ∃ f, fuel = f + 1 := ⟨fuel - 1, by omega⟩
  obtain ⟨k, rfl⟩ : ∃ k, dim = k + 1 := ⟨dim - 1, by omega⟩
  unfold seedsFromFile
  cases white with
  | false =>
    have : (⟨[((k + 1 : Nat) : ℚ)], false, true⟩ : Stream).read none = (⟨[], false, false⟩, some ((k + 1 : Nat) : ℚ)) := rfl
    rw [this]
    dsimp only
    rw [if_neg (by simp), whileLoop, if_neg (by simp)]
    rfl
  | true =>
    have : (⟨[((k + 1 : Nat) : ℚ)], true, true⟩ : Stream).read none = (⟨[], true, true⟩, some ((k + 1 : Nat) : ℚ)) := rfl
    rw [this]
    dsimp only
    rw [if_neg (by simp), whileLoop, if_pos rfl]
    have : readSeed (k + 1) x0 x1 g0 g1 ⟨⟨[], true, true⟩, none, ⟨0, 0, 0⟩, []⟩ = .ub := by
      unfold readSeed
      rw [List.range_succ_eq_map, List.foldlM_cons]
      rfl
    rw [this]
    rfl

/-! ## Writing and reading back -/

theorem six_near (q : ℚ) : six q ≤ q + 1 / 2000000 ∧ q - 1 / 2000000 < six q := by
  have h1 := Int.floor_le (q * 10 ^ 6 + 1 / 2)
  have h2 := Int.lt_floor_add_one (q * 10 ^ 6 + 1 / 2)
  unfold six
  constructor
  · rw [div_le_iff₀ (by norm_num)]; linarith
  · rw [lt_div_iff₀ (by norm_num)]; linarith

theorem six_zero : six 0 = 0 := by
  unfold six
  rw [show ⌊(0 : ℚ) * 10 ^ 6 + 1 / 2⌋ = 0 by rw [Int.floor_eq_iff]; norm_num]
  norm_num

theorem six_unit {q : ℚ} (h0 : 0 ≤ q) (h1 : q ≤ 1) : 0 ≤ six q ∧ six q ≤ 1 := by
  have a0 : (0 : Int) ≤ ⌊q * 10 ^ 6 + 1 / 2⌋ := Int.floor_nonneg.2 (by positivity)
  have a1 : ⌊q * 10 ^ 6 + 1 / 2⌋ ≤ (10 ^ 6 : Int) := by
    have : ⌊q * 10 ^ 6 + 1 / 2⌋ < (10 ^ 6 + 1 : Int) := Int.floor_lt.2 (by push_cast; linarith)
    omega
  have b0 : (0 : ℚ) ≤ (⌊q * 10 ^ 6 + 1 / 2⌋ : ℚ) := by exact_mod_cast a0
  have b1 : (⌊q * 10 ^ 6 + 1 / 2⌋ : ℚ) ≤ 10 ^ 6 := by exact_mod_cast a1
  unfold six
  exact ⟨div_nonneg b0 (by norm_num), (div_le_one (by norm_num)).2 b1⟩

/-- Numbers between 0 and 1 are read as nodes of the grid. -/
theorem legible_unit {d : Nat} {v : ℚ} (hg : 0 ≤ g0 d) (hs : g0 d < g1 d) (hb : g1 d ≤ 2 ^ 31) (h0 : 0 ≤ v) (h1 : v ≤ 1) :
    Legible g0 g1 d v ∧ g0 d ≤ scaled g0 g1 d v ∧ scaled g0 g1 d v < g1 d := by
  have c0 : (0 : ℚ) ≤ (g0 d : ℚ) := by exact_mod_cast hg
  have c1 : (0 : ℚ) ≤ ((g1 d - g0 d - 1 : Int) : ℚ) := by exact_mod_cast (by omega : (0 : Int) ≤ g1 d - g0 d - 1)
  have c2 : (0 : ℚ) ≤ ((g1 d - g0 d - 1 : Int) : ℚ) * v := mul_nonneg c1 h0
  have c3 : ((g1 d - g0 d - 1 : Int) : ℚ) * v ≤ ((g1 d - g0 d - 1 : Int) : ℚ) := mul_le_of_le_one_right c1 h1
  have key : g0 d ≤ scaled g0 g1 d v ∧ scaled g0 g1 d v < g1 d := by
    unfold scaled
    dsimp only
    rw [if_pos (by linarith)]
    refine ⟨Int.le_floor.2 (by linarith), Int.floor_lt.2 ?_⟩
    have : (g1 d : ℚ) = (g0 d : ℚ) + ((g1 d - g0 d - 1 : Int) : ℚ) + 1 := by push_cast; ring
    linarith
  exact ⟨⟨by linarith, by omega, by omega⟩, key⟩

/-- A coordinate written and read back. -/
def down (g0 : Nat → Int) (d : Nat) (k : Int) : Int := if k = g0 d then k else k - 1

theorem scaled_six {d : Nat} {k : Int} (hg : 0 ≤ g0 d) (hk0 : g0 d ≤ k) (hk1 : k < g1 d) (hL : g1 d - g0 d ≤ 1000) :
    scaled g0 g1 d (six (((k - g0 d : Int) : ℚ) / ((g1 d - g0 d : Int) : ℚ))) = down g0 d k := by
  have c0 : (0 : ℚ) ≤ (g0 d : ℚ) := by exact_mod_cast hg
  unfold down
  by_cases hk : k = g0 d
  · subst hk
    rw [if_pos rfl, sub_self, Int.cast_zero, zero_div, six_zero]
    unfold scaled
    dsimp only
    rw [mul_zero, add_zero, if_pos (by linarith), Int.floor_intCast]
  · rw [if_neg hk]
    obtain ⟨n, hn⟩ : ∃ n, k = g0 d + n := ⟨k - g0 d, by omega⟩
    obtain ⟨L, hLe⟩ : ∃ L, g1 d = g0 d + L := ⟨g1 d - g0 d, by omega⟩
    have e1 : k - g0 d = n := by omega
    have e2 : g1 d - g0 d = L := by omega
    have n1 : (1 : ℚ) ≤ n := by exact_mod_cast (by omega : (1 : Int) ≤ n)
    have n2 : (n : ℚ) + 1 ≤ L := by exact_mod_cast (by omega : n + 1 ≤ L)
    have L2 : (L : ℚ) ≤ 1000 := by exact_mod_cast (by omega : L ≤ 1000)
    have Lp : (0 : ℚ) < L := by linarith
    obtain ⟨u1, u2⟩ := six_near ((n : ℚ) / L)
    obtain ⟨w1, -⟩ := six_unit (q := (n : ℚ) / L) (div_nonneg (by linarith) Lp.le) ((div_le_one Lp).2 (by linarith))
    unfold scaled
    dsimp only
    rw [e1, e2]
    set v := six ((n : ℚ) / L)
    have hq : (((L - 1 : Int) : ℚ)) = (L : ℚ) - 1 := by push_cast; ring
    rw [hq]
    have t0 : (0 : ℚ) ≤ ((L : ℚ) - 1) * v := mul_nonneg (by linarith) w1
    rw [if_pos (by linarith)]
    have x1 : ((L : ℚ) - 1) * v ≤ ((L : ℚ) - 1) * (n / L + 1 / 2000000) := mul_le_mul_of_nonneg_left u1 (by linarith)
    have x2 : ((L : ℚ) - 1) * (n / L - 1 / 2000000) ≤ ((L : ℚ) - 1) * v := mul_le_mul_of_nonneg_left u2.le (by linarith)
    have y : ((L : ℚ) - 1) * (n / L) = n - n / L := by field_simp
    have z1 : (1 : ℚ) / 1000 ≤ n / L := by
      rw [le_div_iff₀ Lp]; linarith
    have z2 : (n : ℚ) / L ≤ 1 - 1 / 1000 := by
      rw [div_le_iff₀ Lp]; linarith
    rw [Int.floor_eq_iff]
    subst hn
    push_cast
    constructor
    · linarith
    · linarith

/-- The seeds read back. -/
def shifted (dim : Nat) (g0 : Nat → Int) (s : Seed) : Seed := seedOf dim fun d => down g0 d (s.at d)

/-- The last number written for the seeds. -/
def lastWritten (dim : Nat) (g0 g1 : Nat → Int) (seeds : List Seed) : ℚ :=
  six ((((seeds.getLastD ⟨0, 0, 0⟩).at (dim - 1) - g0 (dim - 1) : Int) : ℚ) / ((g1 (dim - 1) - g0 (dim - 1) : Int) : ℚ))

/-- **C80.** `seeds_from_file` reads from a file written by `seeds_to_file` every seed moved down by one node along every axis, except on the lower faces, and one
seed too many, whose coordinates all come from the last number. -/
theorem written_read (hpos : 0 < dim) (hdim : dim ≤ 3) (hg : ∀ d, d < dim → 0 ≤ g0 d ∧ g0 d < g1 d ∧ g1 d ≤ 2 ^ 31 ∧ g1 d - g0 d ≤ 1000)
    {seeds : List Seed} (hne : seeds ≠ []) (hin : ∀ s ∈ seeds, Tessellate.InBox dim g0 g1 s) {fuel : Nat} (hfuel : seeds.length + 1 ≤ fuel) :
    seedsFromFile dim x0 x1 g0 g1 (seedsToFile dim g0 g1 seeds) fuel =
      .ok (some (kept dim x0 x1 (seeds.map (shifted dim g0)) ++ kept dim x0 x1 [seedOf dim fun d => scaled g0 g1 d (lastWritten dim g0 g1 seeds)])) := by
  obtain ⟨f, hf⟩ : ∃ f : Seed → List ℚ, f = fun s => (List.range dim).map fun d => six (((s.at d - g0 d : Int) : ℚ) / ((g1 d - g0 d : Int) : ℚ)) := ⟨_, rfl⟩
  have hget : ∀ s d, d < dim → (f s).getD d 0 = six (((s.at d - g0 d : Int) : ℚ) / ((g1 d - g0 d : Int) : ℚ)) := by
    intro s d hd; rw [hf]; simp [hd]
  have hunit : ∀ s ∈ seeds, ∀ d, d < dim → 0 ≤ (f s).getD d 0 ∧ (f s).getD d 0 ≤ 1 := by
    intro s hs d hd
    rw [hget s d hd]
    obtain ⟨i1, i2⟩ := hin s hs d hd
    have p1 : (0 : ℚ) ≤ ((s.at d - g0 d : Int) : ℚ) := by exact_mod_cast (by omega : (0 : Int) ≤ s.at d - g0 d)
    have p2 : ((s.at d - g0 d : Int) : ℚ) ≤ ((g1 d - g0 d : Int) : ℚ) := by exact_mod_cast (by omega : s.at d - g0 d ≤ g1 d - g0 d)
    have p3 : (0 : ℚ) < ((g1 d - g0 d : Int) : ℚ) := by exact_mod_cast (by omega : (0 : Int) < g1 d - g0 d)
    exact six_unit (div_nonneg p1 p3.le) ((div_le_one p3).2 p2)
  have hlast : ∃ s ∈ seeds, (seeds.map f).getLastD [] = f s ∧ seeds.getLastD ⟨0, 0, 0⟩ = s := by
    refine ⟨seeds.getLast hne, List.getLast_mem hne, ?_, ?_⟩
    · rw [List.getLastD_eq_getLast?, List.getLast?_map, List.getLast?_eq_getLast_of_ne_nil hne]; rfl
    · rw [List.getLastD_eq_getLast?, List.getLast?_eq_getLast_of_ne_nil hne]; rfl
  obtain ⟨z, hz, z1, z2⟩ := hlast
  have hfile : seedsToFile dim g0 g1 seeds = ⟨(dim : ℚ) :: (seeds.map f).flatten, true, true⟩ := by
    unfold seedsToFile
    rw [List.flatMap_def, hf]
  have hlo : lastOf dim (seeds.map f) = lastWritten dim g0 g1 seeds := by
    unfold lastOf lastWritten
    rw [z1, z2, hget z _ (by omega)]
  rw [hfile, seedsFromFile_spec hpos hdim true (by simpa using hne) (fun row hrow => by
      obtain ⟨s, hs, rfl⟩ := List.mem_map.1 hrow
      refine ⟨by rw [hf]; simp, fun d hd => ?_⟩
      obtain ⟨b1, b2, b3, -⟩ := hg d hd
      exact (legible_unit b1 b2 b3 (hunit s hs d hd).1 (hunit s hs d hd).2).1) (fun d hd => by
      obtain ⟨b1, b2, b3, -⟩ := hg d hd
      unfold lastOf
      rw [z1]
      have := hunit z hz (dim - 1) (by omega)
      exact (legible_unit b1 b2 b3 this.1 this.2).1) (by simpa using hfuel), if_pos rfl]
  unfold phantom
  rw [hlo, List.map_map]
  congr 4
  refine List.map_congr_left fun s hs => ?_
  rw [Function.comp_apply, rowSeed, shifted]
  refine seedOf_congr fun d hd => ?_
  obtain ⟨b1, b2, b3, b4⟩ := hg d hd
  obtain ⟨i1, i2⟩ := hin s hs d hd
  rw [hget s d hd]
  exact scaled_six b1 i1 i2 b4

/-- On a 10 by 10 grid the seeds (0,0), (5,3), (9,9) come back as (0,0), (4,2), (8,8) and a fourth seed (8,8). -/
example : seedsFromFile 2 (fun _ => 0) (fun _ => 10) (fun _ => 0) (fun _ => 10) (seedsToFile 2 (fun _ => 0) (fun _ => 10) [⟨0, 0, 0⟩, ⟨5, 3, 0⟩, ⟨9, 9, 0⟩]) 5 =
    .ok (some [⟨0, 0, 0⟩, ⟨4, 2, 0⟩, ⟨8, 8, 0⟩, ⟨8, 8, 0⟩]) := by
  decide +kernel

/-! ## The reader of `tessellate.hpp` -/

/-- The integer part of a number. -/
def whole (q : ℚ) : Int := if 0 ≤ q then ⌊q⌋ else ⌈q⌉

/-- The value used for axis `d`: that of the line, or the last one of the line. -/
def lineValue (ln : List ℚ) (d : Nat) : ℚ := ln.getD (min d (ln.length - 1)) 0

/-- **C80.** `seeds_from_file` of `tessellate.hpp` on one line that is not blank. -/
theorem lineSeed_eq (hdim : dim ≤ 3) {ln : List ℚ} (hne : ln ≠ []) {s : Seed} (hp : Padded dim s)
    (hfit : ∀ d, d < dim → -2 ^ 31 ≤ whole (((g1 d - g0 d : Int) : ℚ) * lineValue ln d) ∧ whole (((g1 d - g0 d : Int) : ℚ) * lineValue ln d) < 2 ^ 31) :
    lineSeed dim g0 g1 s ln = .ok (seedOf dim fun d => g0 d + whole (((g1 d - g0 d : Int) : ℚ) * lineValue ln d)) := by
  have hlen : 0 < ln.length := List.length_pos_iff.2 hne
  have key : ∀ k, k ≤ dim → ∃ s', (List.range k).foldlM (lineCoord g0 g1 ln) (s, none) =
      .ok (s', if k = 0 then none else some (lineValue ln (k - 1))) ∧
      ∀ j, j < 3 → s'.at j = if j < k then g0 j + whole (((g1 j - g0 j : Int) : ℚ) * lineValue ln j) else s.at j := by
    intro k
    induction k with
    | zero => intro _; exact ⟨s, rfl, fun j _ => rfl⟩
    | succ k ih =>
      intro hk
      obtain ⟨s', e, h⟩ := ih (by omega)
      rw [foldlM_range_succ, e, Outcome.ok_bind]
      have hv : ln[k]?.or (if k = 0 then none else some (lineValue ln (k - 1))) = some (lineValue ln k) := by
        unfold lineValue
        by_cases hkl : k < ln.length
        · rw [Nat.min_eq_left (by omega : k ≤ ln.length - 1), List.getElem?_eq_getElem hkl]
          have : ln.getD k 0 = ln[k] := by simp [hkl]
          rw [this]
          rfl
        · rw [List.getElem?_eq_none (by omega), if_neg (by omega), Nat.min_eq_right (by omega : ln.length - 1 ≤ k - 1), Nat.min_eq_right (by omega : ln.length - 1 ≤ k)]
          rfl
      unfold lineCoord
      dsimp only
      rw [hv]
      dsimp only
      have hi : toInt (((g1 k - g0 k : Int) : ℚ) * lineValue ln k) = .ok (whole (((g1 k - g0 k : Int) : ℚ) * lineValue ln k)) := if_pos (hfit k (by omega))
      rw [hi, Outcome.ok_bind]
      refine ⟨_, by rw [if_neg (by omega)]; rfl, fun j hj => ?_⟩
      rw [setSeed_at (by omega) hj]
      by_cases h1 : j = k
      · subst h1; rw [if_pos rfl, if_pos (by omega)]
      · rw [if_neg h1, h j hj]
        by_cases h3 : j < k
        · rw [if_pos h3, if_pos (by omega)]
        · rw [if_neg h3, if_neg (by omega)]
  obtain ⟨s', e, h⟩ := key dim le_rfl
  unfold lineSeed
  rw [e, Outcome.ok_bind]
  congr 1
  refine seed_ext fun j hj => ?_
  rw [h j hj, seedOf_at dim _ hj]
  split_ifs with c
  · rfl
  · exact hp j (by omega) hj

/-- **C80.** A blank line makes the reader of `tessellate.hpp` use an uninitialised number. -/
theorem lineSeed_blank (hpos : 0 < dim) (s : Seed) : lineSeed dim g0 g1 s [] = .ub := by
  obtain ⟨k, rfl⟩ : ∃ k, dim = k + 1 := ⟨dim - 1, by omega⟩
  unfold lineSeed
  rw [List.range_succ_eq_map, List.foldlM_cons]
  rfl

/-- The lines are legible. -/
def LinesFit (dim : Nat) (g0 g1 : Nat → Int) (ln : List ℚ) : Prop :=
  ∀ d, d < dim → -2 ^ 31 ≤ whole (((g1 d - g0 d : Int) : ℚ) * lineValue ln d) ∧ whole (((g1 d - g0 d : Int) : ℚ) * lineValue ln d) < 2 ^ 31

/-- **C80.** All lines: one seed per line; undefined behaviour if one of them is blank. -/
theorem linesSeeds_eq (hpos : 0 < dim) (hdim : dim ≤ 3) {lines : List (List ℚ)} (hfit : ∀ ln ∈ lines, ln ≠ [] → LinesFit dim g0 g1 ln) :
    linesSeeds dim g0 g1 lines = if [] ∈ lines then .ub else
      .ok (lines.map fun ln => seedOf dim fun d => g0 d + whole (((g1 d - g0 d : Int) : ℚ) * lineValue ln d)) := by
  have key : ∀ (lines : List (List ℚ)), (∀ ln ∈ lines, ln ≠ [] → LinesFit dim g0 g1 ln) → ∀ (acc : List Seed) (s : Seed), Padded dim s →
      (lines.foldlM (fun (st : List Seed × Seed) ln => (lineSeed dim g0 g1 st.2 ln).bind fun s => .ok (st.1 ++ [s], s)) (acc, s)).bind (fun st => .ok st.1) =
      if [] ∈ lines then .ub else .ok (acc ++ lines.map fun ln => seedOf dim fun d => g0 d + whole (((g1 d - g0 d : Int) : ℚ) * lineValue ln d)) := by
    intro lines
    induction lines with
    | nil => intro _ acc s _; rw [if_neg (by simp)]; simp [Outcome.ok_bind, pure]
    | cons ln lines ih =>
      intro hfit acc s hp
      rw [List.foldlM_cons]
      by_cases hb : ln = []
      · subst hb
        rw [if_pos (by simp), lineSeed_blank hpos]
        rfl
      · rw [lineSeed_eq hdim hb hp (hfit ln (by simp) hb), Outcome.ok_bind]
        have := ih (fun l hl => hfit l (List.mem_cons_of_mem _ hl)) (acc ++ [seedOf dim fun d => g0 d + whole (((g1 d - g0 d : Int) : ℚ) * lineValue ln d)])
          (seedOf dim fun d => g0 d + whole (((g1 d - g0 d : Int) : ℚ) * lineValue ln d)) (seedOf_padded dim _)
        refine Eq.trans this ?_
        have hm : [] ∈ ln :: lines ↔ [] ∈ lines := by
          rw [List.mem_cons]; exact ⟨fun h => h.resolve_left fun h => hb h.symm, .inr⟩
        by_cases hc : [] ∈ lines
        · rw [if_pos hc, if_pos (hm.2 hc)]
        · rw [if_neg hc, if_neg (mt hm.1 hc), List.append_assoc]; rfl
  unfold linesSeeds
  rw [key lines hfit [] ⟨0, 0, 0⟩ (fun j _ hj => by rcases (by omega : j = 0 ∨ j = 1 ∨ j = 2) with rfl | rfl | rfl <;> rfl), List.nil_append]

/-- **C80.** Which numbers are read as coordinate `g0 + k`: those from `k / L` up to, not including, `(k + 1) / L`. -/
theorem whole_iff {L : Int} (hL : 0 < L) {x : ℚ} (hx : 0 ≤ x) (k : Int) : whole ((L : ℚ) * x) = k ↔ (k : ℚ) / L ≤ x ∧ x < ((k : ℚ) + 1) / L := by
  have Lp : (0 : ℚ) < L := by exact_mod_cast hL
  unfold whole
  rw [if_pos (mul_nonneg Lp.le hx), Int.floor_eq_iff, div_le_iff₀ Lp, lt_div_iff₀ Lp, mul_comm (L : ℚ) x]

/-- **C80.** So a file with six decimals moves a seed down if the rounding went down, and the number 1 leads outside. -/
theorem six_lines : whole ((3 : ℚ) * six (1 / 3)) = 0 ∧ whole ((3 : ℚ) * six (2 / 3)) = 2 ∧ ∀ L : Int, 0 < L → whole ((L : ℚ) * 1) = L := by
  refine ⟨by decide +kernel, by decide +kernel, fun L hL => (whole_iff hL zero_le_one L).2 ?_⟩
  have Lp : (0 : ℚ) < L := by exact_mod_cast hL
  rw [div_self Lp.ne', lt_div_iff₀ Lp]
  constructor <;> linarith

example : linesSeeds 2 (fun _ => 0) (fun _ => 8) [[1 / 2, 1 / 4], [3 / 4]] = .ok [⟨4, 2, 0⟩, ⟨6, 6, 0⟩] := by decide +kernel

end

/-! ## Honeycombs -/

theorem mem_ladder {a : Nat} (ha : 0 < a) {start stop y : Int} : y ∈ ladder start stop a ↔ ∃ i : Nat, y = start + i * a ∧ y < stop := by
  fun_induction ladder start stop a with
  | case1 start h ih =>
    rw [List.mem_cons, ih]
    constructor
    · rintro (rfl | ⟨i, e, l⟩)
      · exact ⟨0, by simp, h.2⟩
      · exact ⟨i + 1, by rw [e]; push_cast; ring, l⟩
    · rintro ⟨i, e, l⟩
      cases i with
      | zero => left; simpa using e
      | succ i => exact .inr ⟨i, by rw [e]; push_cast; ring, l⟩
  | case2 start h =>
    refine ⟨fun h => absurd h List.not_mem_nil, ?_⟩
    rintro ⟨i, e, l⟩
    have : 0 ≤ (i : Int) * a := by positivity
    omega

/-- The column offset of row `j`. -/
def offsetOf (a : Nat) (first : Bool) (j : Nat) : Int := if (first ^^ decide (j % 2 = 1)) then ((a / 2 : Nat) : Int) else 0

theorem mem_rows {a : Nat} (ha : 0 < a) {x0 x1 : Int} (hx : 0 ≤ x0) {start stop : Int} {first : Bool} {s : Seed} :
    s ∈ rows x0 x1 a first (ladder start stop a) ↔
      ∃ i j : Nat, s = ⟨x0 % a + offsetOf a first j + i * a, start + j * a, 0⟩ ∧ s.x < x1 ∧ s.y < stop := by
  have hmod : (x0 + a).tmod a = x0 % a := by
    rw [Int.tmod_eq_emod_of_nonneg (by omega), Int.add_emod_right]
  fun_induction ladder start stop a generalizing first with
  | case1 start h ih =>
    have hoff : (if first then (a : Int) else 0).tdiv 2 = offsetOf a first 0 := by
      unfold offsetOf
      cases first
      · rfl
      · simp only [if_true]
        rw [Int.tdiv_eq_ediv_of_nonneg (by omega)]; simp
    rw [rows, List.mem_append, List.mem_map, hmod, hoff]
    refine (or_congr Iff.rfl ih).trans ?_
    constructor
    · rintro (⟨x, hm, rfl⟩ | ⟨i, j, e, l1, l2⟩)
      · obtain ⟨i, e, l⟩ := (mem_ladder ha).1 hm
        exact ⟨i, 0, by rw [e]; simp, l, h.2⟩
      · refine ⟨i, j + 1, ?_, l1, l2⟩
        rw [e]
        have ho : offsetOf a (!first) j = offsetOf a first (j + 1) := by
          unfold offsetOf
          rcases Nat.mod_two_eq_zero_or_one j with c | c
          · have c' : (j + 1) % 2 = 1 := by omega
            simp [c, c']
          · have c' : (j + 1) % 2 = 0 := by omega
            simp [c, c']
        rw [ho]
        congr 1
        push_cast; ring
    · rintro ⟨i, j, e, l1, l2⟩
      cases j with
      | zero =>
        left
        subst e
        exact ⟨_, (mem_ladder ha).2 ⟨i, rfl, l1⟩, by simp⟩
      | succ j =>
        right
        refine ⟨i, j, ?_, l1, l2⟩
        rw [e]
        have ho : offsetOf a (!first) j = offsetOf a first (j + 1) := by
          unfold offsetOf
          rcases Nat.mod_two_eq_zero_or_one j with c | c
          · have c' : (j + 1) % 2 = 1 := by omega
            simp [c, c']
          · have c' : (j + 1) % 2 = 0 := by omega
            simp [c, c']
        rw [ho]
        congr 1
        push_cast; ring
  | case2 start h =>
    rw [rows]
    refine ⟨fun h => absurd h List.not_mem_nil, ?_⟩
    rintro ⟨i, j, e, -, l⟩
    have e2 : s.y = start + j * a := by rw [e]
    have : 0 ≤ (j : Int) * a := by positivity
    omega

/-- **C81.** The honeycomb seeds of a process whose part of the grid begins at `x0` (not negative) and ends before `x1`: rows at distance `a`, every other one moved by `a / 2`, beginning not
at `x0` but at `x0 mod a`. -/
theorem honeycomb_mem {a : Nat} (ha : 2 ≤ a) {x0 x1 : Nat → Int} (h0 : 0 ≤ x0 0) (h1 : 0 ≤ x0 1) : ∃ l, honeycombSeeds 2 x0 x1 a = .ok l ∧ ∀ s, s ∈ l ↔
    ∃ i j : Nat, s = ⟨x0 0 % a + offsetOf a (decide (0 < (x0 0 + a) % (a / 2 : Nat))) j + i * a, x0 1 % a + j * a, 0⟩ ∧ s.x < x1 0 ∧ s.y < x1 1 := by
  unfold honeycombSeeds
  rw [if_pos rfl, if_neg (by omega)]
  refine ⟨_, rfl, fun s => ?_⟩
  rw [mem_rows (by omega) h0, Int.tmod_eq_emod_of_nonneg (by omega), Int.tmod_eq_emod_of_nonneg (by omega), Int.add_emod_right (x0 1)]

/-- **C81.** On one process (grid from 0): the lattice of the rows; even spacings, and 3, begin with a row that is not moved, the other odd ones with a row that is. -/
theorem honeycomb_serial {a : Nat} (ha : 2 ≤ a) (x1 : Nat → Int) : ∃ l, honeycombSeeds 2 (fun _ => 0) x1 a = .ok l ∧ ∀ s, s ∈ l ↔
    ∃ i j : Nat, s = ⟨i * a + offsetOf a (decide (a % 2 = 1 ∧ a ≠ 3)) j, j * a, 0⟩ ∧ s.x < x1 0 ∧ s.y < x1 1 := by
  obtain ⟨l, e, h⟩ := honeycomb_mem ha (x0 := fun _ => 0) (x1 := x1) le_rfl le_rfl
  refine ⟨l, e, fun s => ?_⟩
  rw [h]
  have hd : decide (0 < ((0 : Int) + a) % (a / 2 : Nat)) = decide (a % 2 = 1 ∧ a ≠ 3) := by
    rw [decide_eq_decide, zero_add, ← Int.natCast_mod]
    rcases Nat.mod_two_eq_zero_or_one a with c | c
    · have : a % (a / 2) = 0 := Nat.mod_eq_zero_of_dvd ⟨2, by omega⟩
      rw [this]; simp [c]
    · by_cases h3 : a = 3
      · subst h3; simp
      · have : a % (a / 2) = 1 := by
          obtain ⟨m, rfl⟩ : ∃ m, a = 2 * m + 1 := ⟨a / 2, by omega⟩
          rw [show (2 * m + 1) / 2 = m by omega, Nat.add_mod, Nat.mul_mod_left, zero_add, Nat.mod_mod, Nat.mod_eq_of_lt (by omega)]
        rw [this]; simp [c, h3]
  rw [hd]
  simp only [Int.zero_emod, zero_add]
  refine exists_congr fun i => exists_congr fun j => ?_
  rw [add_comm (offsetOf a _ j)]

/-- **C81.** Spacings below 2 divide by zero, other dimensions stop the program. -/
theorem honeycomb_bad (x0 x1 : Nat → Int) : (∀ a, a < 2 → honeycombSeeds 2 x0 x1 a = .ub) ∧ ∀ dim a, dim ≠ 2 → honeycombSeeds dim x0 x1 a = .abort (-1) := by
  refine ⟨fun a ha => ?_, fun dim a hd => if_neg hd⟩
  unfold honeycombSeeds
  rw [if_pos rfl, if_pos (by omega)]

/-- **C81.** In parallel with an even spacing, a process whose part begins at multiples of the spacing makes all seeds below its upper corner again that the whole grid has: the seeds next to
the origin exist once per process. -/
theorem honeycomb_again {a : Nat} (ha : 2 ≤ a) (hev : a % 2 = 0) {x0 x1 g1 : Nat → Int} (h0 : 0 ≤ x0 0) (h1 : 0 ≤ x0 1) (d0 : (a : Int) ∣ x0 0) (d1 : (a : Int) ∣ x0 1)
    (hg : ∀ d, x1 d ≤ g1 d) {l whole : List Seed} (hl : honeycombSeeds 2 x0 x1 a = .ok l) (hw : honeycombSeeds 2 (fun _ => 0) g1 a = .ok whole) (s : Seed) :
    s ∈ l ↔ s ∈ whole ∧ s.x < x1 0 ∧ s.y < x1 1 := by
  obtain ⟨l', e, h⟩ := honeycomb_mem ha (x1 := x1) h0 h1
  obtain ⟨w', e', h'⟩ := honeycomb_serial ha g1
  cases hl.symm.trans e
  cases hw.symm.trans e'
  rw [h, h']
  have hd : decide (0 < (x0 0 + a) % (a / 2 : Nat)) = decide (a % 2 = 1 ∧ a ≠ 3) := by
    obtain ⟨q, hq⟩ := d0
    have : (x0 0 + a) % (a / 2 : Nat) = 0 := Int.emod_eq_zero_of_dvd ⟨2 * (q + 1), by
      have : (a : Int) = 2 * (a / 2 : Nat) := by omega
      rw [hq]; nlinarith⟩
    rw [this]; simp [hev]
  rw [hd, Int.emod_eq_zero_of_dvd d0, Int.emod_eq_zero_of_dvd d1]
  simp only [zero_add]
  constructor
  · rintro ⟨i, j, e, l1, l2⟩
    exact ⟨⟨i, j, by rw [e, add_comm (offsetOf a _ j)], by have := hg 0; omega, by have := hg 1; omega⟩, l1, l2⟩
  · rintro ⟨⟨i, j, e, -, -⟩, l1, l2⟩
    exact ⟨i, j, by rw [e, add_comm (offsetOf a _ j)], l1, l2⟩

/-- **C81.** If its part begins at a row number that is not a multiple of the spacing, none of its seeds belongs to the honeycomb of the whole grid. -/
theorem honeycomb_astray {a : Nat} (ha : 2 ≤ a) {x0 x1 g1 : Nat → Int} (h0 : 0 ≤ x0 0) (h1 : 0 ≤ x0 1) (hd : ¬ (a : Int) ∣ x0 1)
    {l whole : List Seed} (hl : honeycombSeeds 2 x0 x1 a = .ok l) (hw : honeycombSeeds 2 (fun _ => 0) g1 a = .ok whole) (s : Seed) (hs : s ∈ l) : s ∉ whole := by
  obtain ⟨l', e, h⟩ := honeycomb_mem ha (x1 := x1) h0 h1
  obtain ⟨w', e', h'⟩ := honeycomb_serial ha g1
  cases hl.symm.trans e
  cases hw.symm.trans e'
  rw [h] at hs
  rw [h']
  rintro ⟨i', j', e2, -, -⟩
  obtain ⟨i, j, e1, -, -⟩ := hs
  have hy : x0 1 % a + j * a = j' * a := by
    have := e1.symm.trans e2
    injection this
  refine hd (Int.dvd_of_emod_eq_zero ?_)
  have p0 := Int.emod_nonneg (x0 1) (by omega : (a : Int) ≠ 0)
  have p1 := Int.emod_lt_of_pos (x0 1) (by omega : (0 : Int) < a)
  have : (a : Int) ∣ x0 1 % a := ⟨j' - j, by linarith⟩
  exact Int.eq_zero_of_dvd_of_nonneg_of_lt p0 p1 this

/-- Two processes on a 16 by 4 grid, spacing 4: the second one (columns 8 to 15) makes the seeds of the first one again. -/
example : honeycombSeeds 2 (fun _ => 0) (fun d => if d = 0 then 8 else 4) 4 = .ok [⟨0, 0, 0⟩, ⟨4, 0, 0⟩] ∧
    honeycombSeeds 2 (fun d => if d = 0 then 8 else 0) (fun d => if d = 0 then 16 else 4) 4 = .ok [⟨0, 0, 0⟩, ⟨4, 0, 0⟩, ⟨8, 0, 0⟩, ⟨12, 0, 0⟩] := by
  decide +kernel

/-- Spacing 4, process that begins at row 6: rows 2 and 6 instead of 4 and 8. -/
example : honeycombSeeds 2 (fun d => if d = 0 then 0 else 6) (fun d => if d = 0 then 8 else 12) 4 =
    .ok [⟨0, 2, 0⟩, ⟨4, 2, 0⟩, ⟨2, 6, 0⟩, ⟨6, 6, 0⟩, ⟨0, 10, 0⟩, ⟨4, 10, 0⟩] := by
  decide +kernel

end MMSP.Generators
