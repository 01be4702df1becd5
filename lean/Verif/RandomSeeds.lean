import Verif.TessellateProps
import Verif.GeneratorsSeedsProps
import Verif.MTRandRange
import Mathlib.Data.Fintype.CardEmbedding
import Mathlib.Data.Fintype.BigOperators
import Mathlib.SetTheory.Cardinal.Finite
/-!
# Tessellation with random seeds (C131)

Model of `algorithms/tessellate.hpp` 499-526 (`seeds_from_prng`) on the generator of `MTRand.lean`, followed by the exchange and the exact tessellation of `Tessellate.lean`, as
`tessellate(grid, nseeds)`, 565-580, does with MPI.

Every rank draws `nseeds` seeds from the whole grid, so there are `np * nseeds` of them. The comment in line 515 assumes that no two coincide. Here: how many grains there are if some do, how
many outcomes of the draws are without repeats, and when two ranks draw the same seeds.

Simplifications: output is left out. The uninitialised memory of a new `MTRand` object is the argument `mem`. `g0 + randInt(..)` is computed in `unsigned long` and converted back to `int`; the
sum of the model is exact, which is the same for seeds inside the grid.
-/

namespace MMSP.RandomSeeds

open MMSP.Tessellate (Seed sqDist tessellateMpi nearest_unique)
open MMSP.Generators (setSeed seedOf seedOf_at Padded poissonSeeds poissonSeeds_eq)
open MMSP.Stencil MMSP.MTRand MMSP.Ghost MMSP.ParallelRun MMSP.Decomp

/-! ## Model -/

/-- `algorithms/tessellate.hpp` 518-523: the coordinates `d` of one seed; `none` if a draw is not finished within the fuel. -/
def coords (lo hi : Nat → Int) (fuel : Nat) : List Nat → Seed → MT → Outcome (Option (Seed × MT))
  | [], s, m => .ok (some (s, m))
  | d :: ds, s, m => (randIntTo ((hi d - lo d - 1) % 2 ^ 64).toNat fuel m).bind fun r =>
    match r with
    | none => .ok none
    | some (v, m') => coords lo hi fuel ds (setSeed s d (lo d + v)) m'

/-- `algorithms/tessellate.hpp` 517-525 -/
def seedLoop (dim : Nat) (lo hi : Nat → Int) (fuel : Nat) : Nat → Seed → MT → List Seed → Outcome (Option (List Seed))
  | 0, _, _, seeds => .ok (some seeds)
  | k + 1, s, m, seeds => (coords lo hi fuel (List.range dim) s m).bind fun r =>
    match r with
    | none => .ok none
    | some (s', m') => seedLoop dim lo hi fuel k s' m' (seeds ++ [s'])

/-- `algorithms/tessellate.hpp` 507-512: the seed of the generator on rank `id`, if `time` returns `clock`. -/
def generatorSeed (bd : Build) (clock id : Nat) : Nat :=
  match bd with
  | .serial => clock
  | .mpi => clock / (id + 1)

/-- `algorithms/tessellate.hpp` 500-526 on rank `id`. `g0`, `g1` are the limits of the whole grid, `x0`, `x1` those of the rank. -/
def seedsFromPrng (bd : Build) (mem : MT) (dim : Nat) (g0 g1 x0 x1 : Nat → Int) (clock id nseeds fuel : Nat) : Outcome (Option (List Seed)) :=
  let m := seed mem (generatorSeed bd clock id)
  match bd with
  | .mpi => seedLoop dim g0 g1 fuel nseeds ⟨0, 0, 0⟩ m []
  | .serial => seedLoop dim x0 x1 fuel nseeds ⟨0, 0, 0⟩ m []

/-! ## What is drawn -/

/-- The first number up to `n` that the masked words of the sequence, from place `t` on, give, and the place after it. -/
def pick (x : Nat → Nat) (n : Nat) : Nat → Nat → Option (Nat × Nat)
  | 0, _ => none
  | fuel + 1, t => if temper (mtSeq x t) &&& used n > n then pick x n fuel (t + 1) else some (temper (mtSeq x t) &&& used n, t + 1)

/-- A run of the generator that is at place `t` of its sequence: fails, or gives a value and is at another place. -/
def Follows {α : Type} (x : Nat → Nat) (o : Option (α × Nat)) (r : Outcome (Option (α × MT))) : Prop :=
  match o with
  | none => r = .ok none
  | some (v, t) => ∃ m, r = .ok (some (v, m)) ∧ At (mtSeq x) t m

theorem randIntTo_pick {x : Nat → Nat} {n : Nat} : ∀ (fuel : Nat) {t : Nat} {m : MT}, At (mtSeq x) t m → Follows x (pick x n fuel t) (randIntTo n fuel m)
  | 0, _, _, _ => rfl
  | fuel + 1, t, m, h => by
    obtain ⟨m', e, h'⟩ := randInt_spec h
    rw [pick, randIntTo, e, Outcome.ok_bind]
    dsimp only
    split_ifs with c
    · exact randIntTo_pick fuel h'
    · exact ⟨m', rfl, h'⟩

theorem pick_le {x : Nat → Nat} {n : Nat} : ∀ {fuel t v t' : Nat}, pick x n fuel t = some (v, t') → v ≤ n
  | 0, _, _, _, h => by cases h
  | fuel + 1, t, v, t', h => by
    rw [pick] at h
    split_ifs at h with c
    · exact pick_le h
    · cases h; omega

/-- The coordinates, from the sequence. -/
def pickCoords (x : Nat → Nat) (lo hi : Nat → Int) (fuel : Nat) : List Nat → Seed → Nat → Option (Seed × Nat)
  | [], s, t => some (s, t)
  | d :: ds, s, t => (pick x ((hi d - lo d - 1) % 2 ^ 64).toNat fuel t).bind fun r => pickCoords x lo hi fuel ds (setSeed s d (lo d + r.1)) r.2

/-- The seeds, from the sequence. -/
def pickSeeds (x : Nat → Nat) (dim : Nat) (lo hi : Nat → Int) (fuel : Nat) : Nat → Seed → Nat → List Seed → Option (List Seed)
  | 0, _, _, seeds => some seeds
  | k + 1, s, t, seeds => (pickCoords x lo hi fuel (List.range dim) s t).bind fun r => pickSeeds x dim lo hi fuel k r.1 r.2 (seeds ++ [r.1])

theorem coords_pick {x : Nat → Nat} {lo hi : Nat → Int} {fuel : Nat} : ∀ (ds : List Nat) {s : Seed} {t : Nat} {m : MT}, At (mtSeq x) t m →
    Follows x (pickCoords x lo hi fuel ds s t) (coords lo hi fuel ds s m)
  | [], s, t, m, h => ⟨m, rfl, h⟩
  | d :: ds, s, t, m, h => by
    have := randIntTo_pick (n := ((hi d - lo d - 1) % 2 ^ 64).toNat) fuel h
    rw [pickCoords, coords]
    cases e : pick x ((hi d - lo d - 1) % 2 ^ 64).toNat fuel t with
    | none => rw [e] at this; rw [show randIntTo _ fuel m = _ from this, Outcome.ok_bind]; rfl
    | some r =>
      rw [e] at this
      obtain ⟨m', e', h'⟩ := this
      rw [e', Outcome.ok_bind]
      exact coords_pick ds h'

theorem seedLoop_pick {x : Nat → Nat} {dim : Nat} {lo hi : Nat → Int} {fuel : Nat} : ∀ (k : Nat) {s : Seed} {t : Nat} {m : MT} {seeds : List Seed},
    At (mtSeq x) t m → seedLoop dim lo hi fuel k s m seeds = .ok (pickSeeds x dim lo hi fuel k s t seeds)
  | 0, _, _, _, _, _ => rfl
  | k + 1, s, t, m, seeds, h => by
    have := coords_pick (lo := lo) (hi := hi) (fuel := fuel) (List.range dim) (s := s) h
    rw [pickSeeds, seedLoop]
    cases e : pickCoords x lo hi fuel (List.range dim) s t with
    | none => rw [e] at this; rw [show coords lo hi fuel _ s m = _ from this, Outcome.ok_bind]; rfl
    | some r =>
      rw [e] at this
      obtain ⟨m', e', h'⟩ := this
      rw [e', Outcome.ok_bind]
      exact seedLoop_pick k h'

theorem run_pick (bd : Build) (mem : MT) (dim : Nat) (g0 g1 x0 x1 : Nat → Int) (clock id nseeds fuel : Nat) :
    seedsFromPrng bd mem dim g0 g1 x0 x1 clock id nseeds fuel = .ok (pickSeeds (knuth (generatorSeed bd clock id)) dim
      (match bd with | .mpi => g0 | .serial => x0) (match bd with | .mpi => g1 | .serial => x1) fuel nseeds ⟨0, 0, 0⟩ 624 []) := by
  cases bd <;> exact seedLoop_pick nseeds (seed_at mem _)

theorem setSeed_at (s : Seed) {d : Nat} (hd : d < 3) (a : Int) {j : Nat} (hj : j < 3) : (setSeed s d a).at j = if j = d then a else s.at j := by
  rcases (by omega : d = 0 ∨ d = 1 ∨ d = 2) with rfl | rfl | rfl <;> rcases (by omega : j = 0 ∨ j = 1 ∨ j = 2) with rfl | rfl | rfl <;> rfl

theorem pickCoords_spec {x : Nat → Nat} {lo hi : Nat → Int} {fuel : Nat} : ∀ (ds : List Nat) {s s' : Seed} {t t' : Nat},
    (∀ d ∈ ds, d < 3 ∧ lo d < hi d ∧ hi d - lo d < 2 ^ 64) → pickCoords x lo hi fuel ds s t = some (s', t') →
    ∀ j, j < 3 → (j ∈ ds → lo j ≤ s'.at j ∧ s'.at j < hi j) ∧ (j ∉ ds → s'.at j = s.at j)
  | [], s, s', t, t', _, h => by cases h; intro j _; simp
  | d :: ds, s, s', t, t', hd, h => by
    rw [pickCoords] at h
    obtain ⟨r, e, h⟩ := Option.bind_eq_some_iff.1 h
    have hl := pick_le (v := r.1) (t' := r.2) e
    have ih := pickCoords_spec ds (fun d hd' => hd d (List.mem_cons_of_mem _ hd')) h
    obtain ⟨h3, hlt, hb⟩ := hd d (by simp)
    rw [Int.emod_eq_of_lt (by omega) (by omega)] at hl
    intro j hj
    have ihj := ih j hj
    rw [setSeed_at s h3 _ hj] at ihj
    by_cases hm : j ∈ ds
    · exact ⟨fun _ => ihj.1 hm, fun h' => absurd (List.mem_cons_of_mem _ hm) h'⟩
    · have e' := ihj.2 hm
      by_cases c : j = d
      · subst c
        rw [if_pos rfl] at e'
        exact ⟨fun _ => by omega, fun h' => absurd (by simp) h'⟩
      · rw [if_neg c] at e'
        exact ⟨fun h' => by simp [c, hm] at h', fun _ => e'⟩

theorem pickSeeds_spec {x : Nat → Nat} {dim : Nat} (hdim : dim ≤ 3) {lo hi : Nat → Int} (hs : ∀ d, d < dim → lo d < hi d ∧ hi d - lo d < 2 ^ 64)
    {fuel : Nat} : ∀ (k : Nat) {s : Seed} {t : Nat} {seeds out : List Seed}, Padded dim s → (∀ a ∈ seeds, Tessellate.InBox dim lo hi a ∧ Padded dim a) →
    pickSeeds x dim lo hi fuel k s t seeds = some out → out.length = seeds.length + k ∧ ∀ a ∈ out, Tessellate.InBox dim lo hi a ∧ Padded dim a
  | 0, s, t, seeds, out, _, ha, h => by cases h; exact ⟨rfl, ha⟩
  | k + 1, s, t, seeds, out, hp, ha, h => by
    rw [pickSeeds] at h
    obtain ⟨r, e, h⟩ := Option.bind_eq_some_iff.1 h
    have sp := pickCoords_spec (s' := r.1) (t' := r.2) (List.range dim) (fun d hd => ⟨by have := List.mem_range.1 hd; omega, hs d (List.mem_range.1 hd)⟩) e
    have hr : Tessellate.InBox dim lo hi r.1 ∧ Padded dim r.1 :=
      ⟨fun j hj => (sp j (by omega)).1 (List.mem_range.2 hj), fun j h1 h2 => ((sp j h2).2 (by simpa using h1)).trans (hp j h1 h2)⟩
    have := pickSeeds_spec hdim hs k hr.2 (fun a h' => by
      rcases List.mem_append.1 h' with h' | h'
      · exact ha a h'
      · rw [List.mem_singleton.1 h']; exact hr) h
    refine ⟨by rw [this.1]; simp; omega, this.2⟩

theorem zero_padded (dim : Nat) : Padded dim ⟨0, 0, 0⟩ := fun j _ hj => by
  rcases (by omega : j = 0 ∨ j = 1 ∨ j = 2) with rfl | rfl | rfl <;> rfl

/-- **C131.** `seeds_from_prng` executes no undefined behaviour. If it returns, it has made `nseeds` seeds, all of them nodes of the whole grid (with MPI) or of the grid (without), with zeros
on the axes the grid does not have. -/
theorem seeds_inside {bd : Build} {mem : MT} {dim : Nat} (hdim : dim ≤ 3) {g0 g1 x0 x1 : Nat → Int} {clock id nseeds fuel : Nat}
    (hg : ∀ d, d < dim → g0 d < g1 d ∧ g1 d - g0 d < 2 ^ 64) (hx : ∀ d, d < dim → x0 d < x1 d ∧ x1 d - x0 d < 2 ^ 64) :
    ∃ o, seedsFromPrng bd mem dim g0 g1 x0 x1 clock id nseeds fuel = .ok o ∧ ∀ l, o = some l → l.length = nseeds ∧
      ∀ s ∈ l, (match bd with | .mpi => Tessellate.InBox dim g0 g1 s | .serial => Tessellate.InBox dim x0 x1 s) ∧ Padded dim s := by
  refine ⟨_, run_pick .., fun l hl => ?_⟩
  cases bd
  · have := pickSeeds_spec hdim hx nseeds (zero_padded dim) (by simp) hl
    simpa using this
  · have := pickSeeds_spec hdim hg nseeds (zero_padded dim) (by simp) hl
    simpa using this

/-- **C131.** It returns at once if all sides of the grid are powers of two: no draw is repeated. -/
theorem seeds_returned {mem : MT} {dim : Nat} {g0 g1 x0 x1 : Nat → Int} {clock id nseeds fuel : Nat}
    (hg : ∀ d, d < dim → ∃ k, k ≤ 32 ∧ g1 d - g0 d = 2 ^ k) (hf : 0 < fuel) :
    ∃ l, seedsFromPrng .mpi mem dim g0 g1 x0 x1 clock id nseeds fuel = .ok (some l) := by
  obtain ⟨fuel, rfl⟩ : ∃ f, fuel = f + 1 := ⟨fuel - 1, by omega⟩
  have one : ∀ (x : Nat → Nat) (t d : Nat), d < dim → ∃ r, pick x ((g1 d - g0 d - 1) % 2 ^ 64).toNat (fuel + 1) t = some r := by
    intro x t d hd
    obtain ⟨k, hk, e⟩ := hg d hd
    have h2 : (2 : Nat) ^ k ≤ 2 ^ 32 := Nat.pow_le_pow_right (by norm_num) hk
    have h1 : 0 < (2 : Nat) ^ k := by positivity
    have en : ((g1 d - g0 d - 1) % 2 ^ 64).toNat = 2 ^ k - 1 := by
      rw [e, show ((2 : Int) ^ k) = ((2 ^ k : Nat) : Int) by push_cast; rfl]
      generalize 2 ^ k = q at h1 h2
      rw [Int.emod_eq_of_lt (by omega) (by omega)]
      omega
    have eu : used (2 ^ k - 1) = 2 ^ k - 1 := by
      have hs : (2 ^ k - 1).size ≤ k := Nat.size_le.2 (by omega)
      have hl := Nat.lt_size_self (2 ^ k - 1)
      have : (2 : Nat) ^ (2 ^ k - 1).size ≤ 2 ^ k := Nat.pow_le_pow_right (by norm_num) hs
      rw [used_eq (by omega)]
      omega
    rw [en, pick, eu, if_neg (Nat.not_lt.2 Nat.and_le_right)]
    exact ⟨_, rfl⟩
  have two : ∀ (x : Nat → Nat) (ds : List Nat), (∀ d ∈ ds, d < dim) → ∀ s t, ∃ r, pickCoords x g0 g1 (fuel + 1) ds s t = some r := by
    intro x ds
    induction ds with
    | nil => intro _ s t; exact ⟨_, rfl⟩
    | cons d ds ih =>
      intro hd s t
      obtain ⟨r, e⟩ := one x t d (hd d (by simp))
      rw [pickCoords, e]
      exact ih (fun d h => hd d (List.mem_cons_of_mem _ h)) _ _
  have three : ∀ (x : Nat → Nat) (k : Nat) s t l, ∃ r, pickSeeds x dim g0 g1 (fuel + 1) k s t l = some r := by
    intro x k
    induction k with
    | zero => intro s t l; exact ⟨_, rfl⟩
    | succ k ih =>
      intro s t l
      obtain ⟨r, e⟩ := two x (List.range dim) (fun d h => List.mem_range.1 h) s t
      rw [pickSeeds, e]
      exact ih _ _ _
  obtain ⟨l, e⟩ := three (knuth (generatorSeed .mpi clock id)) nseeds ⟨0, 0, 0⟩ 624 []
  exact ⟨l, by rw [run_pick]; exact congrArg Outcome.ok e⟩

/-! ## Generators of different ranks -/

/-- **C131.** Different ranks use different seeds of the generator, if the time, in seconds, is at least the product of the larger rank and its successor: for the present time for about the
first 42000 ranks. -/
theorem ranks_differ {clock i j : Nat} (hij : i < j) (hc : j * (j + 1) ≤ clock) : generatorSeed .mpi clock j < generatorSeed .mpi clock i := by
  show clock / (j + 1) < clock / (i + 1)
  have h1 : (i + 1) * (clock / (j + 1) + 1) ≤ clock := by
    have hq : j ≤ clock / (j + 1) := (Nat.le_div_iff_mul_le (by omega)).2 hc
    have hm := Nat.div_mul_le_self clock (j + 1)
    have : (i + 1) * (clock / (j + 1) + 1) ≤ j * (clock / (j + 1) + 1) := Nat.mul_le_mul_right _ hij
    nlinarith
  have := (Nat.le_div_iff_mul_le (show 0 < i + 1 by omega)).2 (show (clock / (j + 1) + 1) * (i + 1) ≤ clock by rw [Nat.mul_comm]; exact h1)
  omega

/-- **C131.** Not for all ranks: these two have the same. -/
theorem ranks_coincide : generatorSeed .mpi 1800000000 42514 = generatorSeed .mpi 1800000000 42515 := by decide

/-- **C131.** What a rank draws depends, besides the grid, on the seed of its generator alone, modulo 2³²; not on what was in memory. So two ranks whose quotients agree draw the same seeds. -/
theorem same_draws {mem mem' : MT} {dim : Nat} {g0 g1 x0 x1 x0' x1' : Nat → Int} {clock id id' nseeds fuel : Nat}
    (h : generatorSeed .mpi clock id % 2 ^ 32 = generatorSeed .mpi clock id' % 2 ^ 32) :
    seedsFromPrng .mpi mem dim g0 g1 x0 x1 clock id nseeds fuel = seedsFromPrng .mpi mem' dim g0 g1 x0' x1' clock id' nseeds fuel := by
  have : knuth (generatorSeed .mpi clock id) = knuth (generatorSeed .mpi clock id') := by
    funext i
    induction i with
    | zero => exact h
    | succ i ih => rw [knuth, knuth, ih]
  rw [run_pick, run_pick, this]

/-! ## Grains -/

/-- Number `i` of a list is the first of its kind. -/
def First (l : List Seed) (i : Nat) : Prop := ∃ s, l[i]? = some s ∧ ∀ j, j < i → l[j]? ≠ some s

theorem sqDist_self {d : Nat} (s : Seed) : sqDist d s.at s = 0 := by
  unfold sqDist
  exact Finset.sum_eq_zero fun j _ => by ring

theorem sqDist_zero {d : Nat} {s t : Seed} (hs : Padded d s) (ht : Padded d t) (h : sqDist d s.at t ≤ 0) : t = s := by
  unfold sqDist at h
  have h0 := (Finset.sum_eq_zero_iff_of_nonneg (fun j _ => sq_nonneg (t.at j - s.at j))).1 (le_antisymm h (Finset.sum_nonneg fun j _ => sq_nonneg _))
  refine Generators.seed_ext fun j hj => ?_
  by_cases c : j < d
  · have := pow_eq_zero_iff (two_ne_zero) |>.1 (h0 j (Finset.mem_range.2 c))
    omega
  · rw [hs j (by omega) hj, ht j (by omega) hj]

theorem nearest_first {d : Nat} {l : List Seed} {x : Nat → Int} {i : Nat} (h : Tessellate.Nearest d l x i) : First l i := by
  obtain ⟨s, a, _, c⟩ := h
  exact ⟨s, a, fun j hj e => lt_irrefl _ (c j s hj e)⟩

theorem first_nearest {d : Nat} {l : List Seed} (hp : ∀ s ∈ l, Padded d s) {i : Nat} {s : Seed} (e : l[i]? = some s)
    (h : ∀ j, j < i → l[j]? ≠ some s) : Tessellate.Nearest d l s.at i := by
  refine ⟨s, e, fun j t ht => ?_, fun j t hj ht => ?_⟩
  · rw [sqDist_self]; exact Finset.sum_nonneg fun j _ => sq_nonneg _
  · rw [sqDist_self]
    by_contra c
    have := sqDist_zero (hp s (List.mem_of_getElem? e)) (hp t (List.mem_of_getElem? ht)) (not_lt.1 c)
    rw [this] at ht
    exact h j hj ht

/-- **C131.** Tessellation with random seeds on `np` ranks, each of which has drawn its seeds. There are `np * nseeds` seeds. On every rank every node gets one grain. The grains that some node
gets are exactly the numbers of the seeds that do not coincide with an earlier one. -/
theorem random_grains {T : Type} [Zero T] [One T] {w : World} {np : Nat} (h : w.Ok np) (hd : w.d ≤ 3) (hside : ∀ d, d < w.d → w.g0 d < w.g1 d ∧ w.g1 d - w.g0 d < 2 ^ 64)
    {mem : Nat → MT} {clock nseeds fuel : Nat} (h0 : 0 < np) (hn : 0 < nseeds) {L : Nat → List Seed}
    (hL : ∀ r, r < np → seedsFromPrng .mpi (mem r) w.d w.g0 w.g1 (w.shape r).x0 (w.shape r).x1 clock r nseeds fuel = .ok (some (L r)))
    (hsmall : ∀ s, Tessellate.InBox w.d w.g0 w.g1 s → ∀ x, InGlobal w.d w.g0 w.g1 x → sqDist w.d x s < 2 ^ 31 - 1) {data : Int → Int → Sparse.Cell T}
    (hempty : ∀ r, IsRank np r → ∀ x, (w.shape r).IsNode x → cellAt (w.shape r) (data r) x = []) :
    ((List.range np).map L).flatten.length = np * nseeds ∧ ∃ out : Int → Int → Sparse.Cell T,
      (∀ r, IsRank np r → tessellateMpi (w.shape r) ((List.range np).map L) (data r) = .ok (out r)) ∧
      (∀ r, IsRank np r → ∀ x, (w.shape r).IsNode x → ∃ i : Nat, cellAt (w.shape r) (out r) x = [((i : Int), 1)] ∧ First ((List.range np).map L).flatten i) ∧
      ∀ i : Nat, First ((List.range np).map L).flatten i → ∃ r, IsRank np r ∧ ∃ x, (w.shape r).IsNode x ∧ cellAt (w.shape r) (out r) x = [((i : Int), 1)] := by
  have each : ∀ r, r < np → (L r).length = nseeds ∧ ∀ s ∈ L r, Tessellate.InBox w.d w.g0 w.g1 s ∧ Padded w.d s := by
    intro r hr
    have e := hL r hr
    rw [run_pick] at e
    injection e with e
    have := pickSeeds_spec hd hside nseeds (zero_padded w.d) (by simp) e
    simpa using this
  have hall : ∀ s ∈ ((List.range np).map L).flatten, Tessellate.InBox w.d w.g0 w.g1 s ∧ Padded w.d s := by
    intro s hs
    obtain ⟨l, hl, hs⟩ := List.mem_flatten.1 hs
    obtain ⟨r, hr, rfl⟩ := List.mem_map.1 hl
    exact (each r (List.mem_range.1 hr)).2 s hs
  have hlen : ((List.range np).map L).flatten.length = np * nseeds := by
    rw [List.length_flatten, List.map_map, List.map_congr_left (f := List.length ∘ L) (g := fun _ => nseeds) fun r hr => (each r (List.mem_range.1 hr)).1]
    simp
  have hne : ((List.range np).map L).flatten ≠ [] := fun e => by
    rw [e] at hlen
    have := Nat.mul_pos h0 hn
    simp at hlen
    omega
  refine ⟨hlen, ?_⟩
  generalize ((List.range np).map L) = locals at hall hne ⊢
  have run : ∀ r : Int, ∃ o, IsRank np r → tessellateMpi (w.shape r) locals (data r) = .ok o ∧ ∀ x, (w.shape r).IsNode x →
      ∃ i : Nat, Tessellate.Nearest w.d locals.flatten x i ∧ cellAt (w.shape r) o x = [((i : Int), (1 : T))] := by
    intro r
    by_cases hr : IsRank np r
    · obtain ⟨o, a, b⟩ := Tessellate.tessellateMpi_spec h hr (fun s hs => (hall s hs).1) hne (fun s hs => hsmall s (hall s hs).1) (hempty r hr)
      exact ⟨o, fun _ => ⟨a, b⟩⟩
    · exact ⟨data r, fun c => absurd c hr⟩
  choose out hout using run
  refine ⟨out, fun r hr => (hout r hr).1, fun r hr x hx => ?_, fun i hi => ?_⟩
  · obtain ⟨i, a, b⟩ := (hout r hr).2 x hx
    exact ⟨i, b, nearest_first a⟩
  · obtain ⟨s, e, hf⟩ := hi
    obtain ⟨r, ⟨ra, rb, rc⟩, _⟩ := partition (np := np) h.setup.grid h.setup.box (hall s (List.mem_of_getElem? e)).1
    have hr : IsRank np r := ⟨ra, rb⟩
    refine ⟨r, hr, s.at, rc, ?_⟩
    obtain ⟨k, a, b⟩ := (hout r hr).2 s.at rc
    rw [b, nearest_unique a (first_nearest (fun t ht => (hall t ht).2) e hf)]

/-- **C131.** So all seeds become grains exactly if no two coincide. -/
theorem all_grains {l : List Seed} : (∀ i, i < l.length → First l i) ↔ l.Nodup := by
  rw [List.nodup_iff_getElem?_ne_getElem?]
  constructor
  · intro h i j hij hj e
    obtain ⟨s, a, b⟩ := h j hj
    exact b i hij (e.trans a)
  · intro h i hi
    exact ⟨l[i], List.getElem?_eq_getElem hi, fun j hj e => h j i hj hi (e.trans (List.getElem?_eq_getElem hi).symm)⟩

/-- **C131.** If the seeds of rank `i` agree with those of a later rank `j`, none of the seeds of rank `j` becomes a grain. -/
theorem lost_grains {np nseeds i j k : Nat} {L : Nat → List Seed} (hlen : ∀ r, r < np → (L r).length = nseeds) (hij : i < j) (hj : j < np) (hk : k < nseeds)
    (he : L j = L i) : ¬ First ((List.range np).map L).flatten (j * nseeds + k) := by
  have at' : ∀ r, r < np → ((List.range np).map L).flatten[r * nseeds + k]? = (L r)[k]? := by
    intro r hr
    have split : (List.range np).map L = (List.range r).map L ++ (L r :: (List.range' (r + 1) (np - r - 1)).map L) := by
      rw [List.range_eq_range', show np = r + (1 + (np - r - 1)) by omega, ← List.range'_append_1, List.map_append, ← List.range_eq_range']
      congr 1
      rw [← List.range'_append_1, show r + (1 + (np - r - 1)) - r - 1 = np - r - 1 by omega]
      simp
    have hl : ((List.range r).map L).flatten.length = r * nseeds := by
      rw [List.length_flatten, List.map_map, List.map_congr_left (f := List.length ∘ L) (g := fun _ => nseeds) fun q hq => hlen q (by have := List.mem_range.1 hq; omega)]
      simp
    rw [split, List.flatten_append, List.flatten_cons, List.getElem?_append_right (by omega), hl, Nat.add_sub_cancel_left, List.getElem?_append_left (by rw [hlen r hr]; exact hk)]
  rintro ⟨s, a, b⟩
  refine b (i * nseeds + k) ?_ ?_
  · have : i * nseeds + nseeds ≤ j * nseeds := by
      rw [← Nat.succ_mul]; exact Nat.mul_le_mul_right _ hij
    omega
  · rw [at' i (by omega), ← he, ← at' j hj, a]

/-! ## How many draws are without repeats -/

/-- Whatever `randInt` returns for every seed and axis: all possible draws of `n` seeds. -/
abbrev Table (dim n : Nat) (g0 g1 : Nat → Int) : Type := Fin n → (d : Fin dim) → Fin (g1 d - g0 d).toNat

/-- The draws of a table, in the order of the program. -/
def Table.draw {dim n : Nat} {g0 g1 : Nat → Int} (u : Table dim n g0 g1) (k : Nat) (_ : Int) : Int :=
  if h : k / dim < n ∧ 0 < dim then ((u ⟨k / dim, h.1⟩ ⟨k % dim, Nat.mod_lt _ h.2⟩ : Nat) : Int) else 0

/-- **C131.** Of the `N ^ n` ways in which `n` seeds can be drawn in a grid with `N` nodes, `N (N - 1) ⋯ (N - n + 1)` are without repeats. In particular repeats are certain for `n > N`. -/
theorem no_repeats {dim n : Nat} (h1 : 1 ≤ dim) (hd : dim ≤ 3) (g0 g1 : Nat → Int) :
    Fintype.card (Table dim n g0 g1) = (∏ d : Fin dim, (g1 d - g0 d).toNat) ^ n ∧
    Nat.card { u : Table dim n g0 g1 // (poissonSeeds dim g0 g1 n u.draw).Nodup } = (∏ d : Fin dim, (g1 d - g0 d).toNat).descFactorial n := by
  constructor
  · rw [Fintype.card_fun, Fintype.card_pi]; simp
  · have key : ∀ u : Table dim n g0 g1, (poissonSeeds dim g0 g1 n u.draw).Nodup ↔ Function.Injective u := by
      intro u
      have val : ∀ (i : Fin n) (d : Nat) (hd' : d < dim), u.draw (dim * i + d) (g1 d - g0 d - 1) = ((u i ⟨d, hd'⟩ : Nat) : Int) := by
        intro i d hd'
        have e1 : (dim * i + d) / dim = i := by rw [Nat.mul_add_div (by omega), Nat.div_eq_of_lt hd']; rfl
        have e2 : (dim * i + d) % dim = d := by rw [Nat.mul_add_mod, Nat.mod_eq_of_lt hd']
        unfold Table.draw
        rw [dif_pos ⟨by rw [e1]; exact i.2, by omega⟩]
        have : ∀ (a : Nat) (ha : a < n) (b : Nat) (hb : b < dim), a = i → b = d → ((u ⟨a, ha⟩ ⟨b, hb⟩ : Nat) : Int) = ((u i ⟨d, hd'⟩ : Nat) : Int) := by
          rintro a ha b hb rfl rfl; rfl
        exact this _ _ _ _ e1 e2
      rw [poissonSeeds_eq hd, List.nodup_map_iff_inj_on List.nodup_range]
      constructor
      · intro hinj i j hij
        refine Fin.ext (hinj i (by simp) j (by simp) ?_)
        refine Generators.seedOf_congr fun d hd' => ?_
        rw [val i d hd', val j d hd', hij]
      · intro hinj i hi j hj e
        have := hinj (a₁ := ⟨i, List.mem_range.1 hi⟩) (a₂ := ⟨j, List.mem_range.1 hj⟩) (funext fun d => by
          have e' := congrArg (fun s => Seed.at s d) e
          simp only [seedOf_at dim _ (show (d : Nat) < 3 by have := d.2; omega), if_pos d.2] at e'
          have a := val ⟨i, List.mem_range.1 hi⟩ d d.2
          have b := val ⟨j, List.mem_range.1 hj⟩ d d.2
          simp only at a b
          rw [a, b] at e'
          exact Fin.ext (by simpa using e'))
        exact congrArg Fin.val this
    have eqv : { u : Table dim n g0 g1 // (poissonSeeds dim g0 g1 n u.draw).Nodup } ≃ (Fin n ↪ ((d : Fin dim) → Fin (g1 d - g0 d).toNat)) :=
      (Equiv.subtypeEquivRight key).trans (Equiv.subtypeInjectiveEquivEmbedding _ _)
    rw [Nat.card_congr eqv, Nat.card_eq_fintype_card, Fintype.card_embedding_eq, Fintype.card_pi]
    simp

/-- **C131.** With more seeds than nodes, some coincide, whatever is drawn. -/
theorem repeats_certain {dim n : Nat} (h1 : 1 ≤ dim) (hd : dim ≤ 3) {g0 g1 : Nat → Int} (hn : ∏ d : Fin dim, (g1 d - g0 d).toNat < n) (u : Table dim n g0 g1) :
    ¬ (poissonSeeds dim g0 g1 n u.draw).Nodup := by
  have h := (no_repeats (n := n) h1 hd g0 g1).2
  rw [Nat.descFactorial_eq_zero_iff_lt.2 hn] at h
  rcases Nat.card_eq_zero.1 h with h | h
  · exact fun c => h.false ⟨u, c⟩
  · exact absurd (inferInstance : Finite _) (not_finite_iff_infinite.2 h)

example : Tessellate.Nearest 2 [⟨1, 1, 0⟩, ⟨3, 3, 0⟩, ⟨1, 1, 0⟩] (fun _ => 1) 0 ∧ ¬ First [⟨1, 1, 0⟩, ⟨3, 3, 0⟩, ⟨1, 1, 0⟩] 2 ∧
    ¬ First ((List.range 2).map fun _ => [⟨1, 1, 0⟩, ⟨3, 3, 0⟩]).flatten (1 * 2 + 1) := by
  refine ⟨?_, ?_, lost_grains (np := 2) (nseeds := 2) (i := 0) (j := 1) (fun _ _ => rfl) (by norm_num) (by norm_num) (by norm_num) rfl⟩
  · have := first_nearest (d := 2) (l := [⟨1, 1, 0⟩, ⟨3, 3, 0⟩, ⟨1, 1, 0⟩]) (i := 0) (s := ⟨1, 1, 0⟩) (fun s hs j h h3 => by
      obtain rfl : j = 2 := by omega
      simp at hs
      rcases hs with rfl | rfl | rfl <;> rfl) rfl (by simp)
    obtain ⟨s, a, b, c⟩ := this
    have e : ∀ t : Seed, sqDist 2 (fun _ => 1) t = sqDist 2 (Seed.at ⟨1, 1, 0⟩) t := fun t =>
      Finset.sum_congr rfl fun j hj => by rcases (by have := Finset.mem_range.1 hj; omega : j = 0 ∨ j = 1) with rfl | rfl <;> rfl
    exact ⟨s, a, fun j t h => by rw [e, e]; exact b j t h, fun j t h h' => by rw [e, e]; exact c j t h h'⟩
  · rintro ⟨s, a, b⟩
    exact b 0 (by norm_num) a

/-- For example 23 seeds in a line of 365 nodes: in fewer than half of the cases without repeats. -/
example : 2 * Nat.descFactorial 365 23 < 365 ^ 23 := by decide +kernel

/-- The hypotheses of `random_grains` can be met: grid of 4 by 4 nodes on two ranks. -/
example : Tessellate.sampleWorld.Ok 2 ∧ Tessellate.sampleWorld.d ≤ 3 ∧
    ∃ L : Nat → List Seed, ∀ r : Nat, r < 2 → seedsFromPrng .mpi ⟨fun _ => 0, 0, 0⟩ Tessellate.sampleWorld.d Tessellate.sampleWorld.g0 Tessellate.sampleWorld.g1
      (Tessellate.sampleWorld.shape r).x0 (Tessellate.sampleWorld.shape r).x1 1800000000 r 3 1 = .ok (some (L r)) := by
  have hj2 : ∀ j, j < 2 → j = 0 ∨ j = 1 := by intro j hj; omega
  refine ⟨⟨⟨⟨fun j hj => ?_, by decide⟩, by decide, fun j hj => ?_, by decide, fun j hj => ?_, fun r h0 h1 j hj => ?_⟩, fun j hj => ?_, fun j hj h => ?_⟩, by decide, ?_⟩
  · rcases hj2 j hj with rfl | rfl <;> decide
  · rcases hj2 j hj with rfl | rfl <;> decide
  · rcases hj2 j hj with rfl | rfl <;> decide
  · have hr : r = 0 ∨ r = 1 := by omega
    rcases hj2 j hj with rfl | rfl <;> rcases hr with rfl | rfl <;> decide +kernel
  · exact ⟨show BC.periodic ≠ BC.parallel by decide, show BC.neumann ≠ BC.parallel by decide⟩
  · rcases h with h | h
    · exact absurd h (show BC.periodic ≠ BC.mirror by decide)
    · exact absurd h (show BC.neumann ≠ BC.mirror by decide)
  have := fun r : Nat => seeds_returned (mem := ⟨fun _ => 0, 0, 0⟩) (dim := Tessellate.sampleWorld.d) (g0 := Tessellate.sampleWorld.g0) (g1 := Tessellate.sampleWorld.g1)
    (x0 := (Tessellate.sampleWorld.shape r).x0) (x1 := (Tessellate.sampleWorld.shape r).x1) (clock := 1800000000) (id := r) (nseeds := 3) (fuel := 1)
    (fun _ _ => ⟨2, by norm_num, by simp [Tessellate.sampleWorld]⟩) (by norm_num)
  choose L hL using this
  exact ⟨L, fun r _ => hL r⟩

end MMSP.RandomSeeds
