import Verif.Tessellate
import Verif.ParallelRunProps
import Verif.SparseProps
import Mathlib.Tactic.NormNum
import Mathlib.Tactic.Linarith
/-!
# Properties of seed exchange and exact tessellation
-/

namespace MMSP.Tessellate

open MMSP.Stencil MMSP.Ghost MMSP.ParallelRun MMSP.Decomp

/-! ## Seed buffers -/

/-- What the buffer of a list of seeds should be. -/
def flat (l : List Seed) : List Int := l.flatMap fun s => [s.x, s.y, s.z]

theorem flat_length (l : List Seed) : (flat l).length = 3 * l.length := by
  induction l with
  | nil => rfl
  | cons s l ih => simp only [flat, List.flatMap_cons, List.length_append, List.length_cons, List.length_nil] at *; omega

theorem put_at (pre : List Int) (a : Int) (rest : List Int) (v : Int) {n : Nat} (h : n = pre.length) :
    put (pre ++ a :: rest) n v = .ok (pre ++ v :: rest) := by
  subst h
  unfold put
  rw [if_pos (by simp), List.set_append_right _ _ (le_refl _), Nat.sub_self, List.set_cons_zero]

theorem toBuffer_loop (vp : List Seed) : ∀ (pre rest : List Int), rest.length ≥ 3 * vp.length →
    vp.foldlM (fun (st : List Int × Nat) s =>
      [0, 1, 2].foldlM (fun (st : List Int × Nat) d => (put st.1 st.2 (s.at d)).bind fun q => .ok (q, st.2 + 1)) st)
      (pre ++ rest, pre.length) = Outcome.ok (pre ++ flat vp ++ rest.drop (3 * vp.length), pre.length + 3 * vp.length) := by
  induction vp with
  | nil => intro pre rest _; simp [flat]
  | cons s vp ih =>
    intro pre rest h
    rw [List.length_cons] at h
    match rest, h with
    | a :: b :: c :: rest, h =>
      simp only [List.length_cons] at h
      rw [List.foldlM_cons]
      have e : [0, 1, 2].foldlM (fun (st : List Int × Nat) d => (put st.1 st.2 (s.at d)).bind fun q => Outcome.ok (q, st.2 + 1))
          (pre ++ a :: b :: c :: rest, pre.length) = .ok ((pre ++ [s.x, s.y, s.z]) ++ rest, (pre ++ [s.x, s.y, s.z]).length) := by
        simp only [List.foldlM_cons, List.foldlM_nil, Outcome.bind_eq, Outcome.pure_eq]
        rw [put_at pre a _ _ rfl, Outcome.ok_bind, Outcome.ok_bind]
        have e1 : pre ++ s.at 0 :: b :: c :: rest = (pre ++ [s.at 0]) ++ b :: (c :: rest) := by simp
        dsimp only
        rw [e1, put_at _ b _ _ (by simp), Outcome.ok_bind, Outcome.ok_bind]
        have e2 : pre ++ [s.at 0] ++ s.at 1 :: c :: rest = (pre ++ [s.at 0] ++ [s.at 1]) ++ c :: rest := by simp
        dsimp only
        rw [e2, put_at _ c _ _ (by simp), Outcome.ok_bind, Outcome.ok_bind]
        simp [Seed.at]
      rw [e, Outcome.bind_eq, Outcome.ok_bind, ih _ rest (by omega)]
      congr 2
      · have : 3 * (s :: vp).length = 3 * vp.length + 3 := by rw [List.length_cons]; omega
        rw [this]
        simp [flat]
      · simp only [List.length_append, List.length_cons, List.length_nil]; omega

/-- **C35.** Packing writes the coordinates of all seeds and returns three times their number, and fails in no other way than by a
buffer that is too small. -/
theorem toBuffer_spec (vp : List Seed) (q : List Int) (h : 3 * vp.length ≤ q.length) :
    seedsToBuffer vp q = .ok (flat vp ++ q.drop (3 * vp.length), 3 * vp.length) := by
  have := toBuffer_loop vp [] q h
  simpa [seedsToBuffer] using this

theorem sendBuffer_spec (vp : List Seed) : sendBuffer vp = .ok (flat vp, 3 * vp.length) := by
  unfold sendBuffer
  rw [toBuffer_spec vp _ (by simp)]
  simp

theorem fromLoop_spec (ss : List Seed) : ∀ (pre rest : List Int) (vp : List Seed),
    fromLoop (pre ++ (flat ss ++ rest)) (pre.length + 3 * ss.length) (pre.length + 2) vp = .ok (vp ++ ss) := by
  induction ss with
  | nil => intro pre rest vp; rw [fromLoop, if_neg (by simp)]; simp
  | cons s ss ih =>
    intro pre rest vp
    rw [fromLoop, if_pos (by rw [List.length_cons]; omega)]
    have f0 : fetch (pre ++ (flat (s :: ss) ++ rest)) (pre.length + 2 - 2) = .ok s.x := by
      simp [fetch, flat]
    have f1 : fetch (pre ++ (flat (s :: ss) ++ rest)) (pre.length + 2 - 1) = .ok s.y := by
      simp [fetch, flat, List.getElem?_append_right]
    have f2 : fetch (pre ++ (flat (s :: ss) ++ rest)) (pre.length + 2) = .ok s.z := by
      simp [fetch, flat, List.getElem?_append_right]
    rw [f0, f1, f2]
    simp only [Outcome.ok_bind]
    have e := ih (pre ++ [s.x, s.y, s.z]) rest (vp ++ [⟨s.x, s.y, s.z⟩])
    have e1 : pre ++ [s.x, s.y, s.z] ++ (flat ss ++ rest) = pre ++ (flat (s :: ss) ++ rest) := by simp [flat]
    have e2 : (pre ++ [s.x, s.y, s.z]).length = pre.length + 3 := by simp
    rw [e1, e2] at e
    have e3 : pre.length + 3 * (s :: ss).length = pre.length + 3 + 3 * ss.length := by rw [List.length_cons]; omega
    rw [e3, e]
    simp

/-- **C35.** Unpacking appends the seeds, whatever follows in the buffer. -/
theorem fromBuffer_spec (vp ss : List Seed) (rest : List Int) :
    seedsFromBuffer vp (flat ss ++ rest) (3 * ss.length) = .ok (vp ++ ss) := by
  have := fromLoop_spec ss [] rest vp
  simpa [seedsFromBuffer] using this

/-- **C35.** Round trip. -/
theorem seeds_roundTrip (ss : List Seed) (q : List Int) (h : 3 * ss.length ≤ q.length) :
    ((seedsToBuffer ss q).bind fun r => seedsFromBuffer [] r.1 r.2) = .ok ss := by
  rw [toBuffer_spec ss q h, Outcome.ok_bind, fromBuffer_spec]; simp

example : seedsToBuffer [⟨1, 2, 3⟩, ⟨4, 5, 6⟩] [0, 0, 0, 0, 0, 0, 9] = .ok ([1, 2, 3, 4, 5, 6, 9], 6) ∧
    seedsToBuffer [⟨1, 2, 3⟩, ⟨4, 5, 6⟩] [0, 0, 0, 0, 0] = .ub := by decide

/-! ## Exchange -/

theorem mapM_ok {α β : Type} (f : α → Outcome β) (h : α → β) (l : List α) (hf : ∀ a ∈ l, f a = .ok (h a)) :
    l.mapM f = .ok (l.map h) := by
  induction l with
  | nil => rfl
  | cons a l ih =>
    rw [List.mapM_cons, hf a (by simp), ih fun b hb => hf b (by simp [hb])]
    rfl

theorem offset_succ (sizes : List Nat) {i : Nat} (h : i < sizes.length) : offset sizes (i + 1) = offset sizes i + sizes.getD i 0 := by
  unfold offset
  rw [List.take_succ_eq_append_getElem h, List.sum_append]
  simp [List.getD, h]

theorem flatten_take_length (parts : List (List Int)) (i : Nat) :
    (parts.take i).flatten.length = offset (parts.map List.length) i := by
  unfold offset
  rw [List.length_flatten, List.map_take]

/-- `MPI_Allgatherv` with the offsets computed puts the pieces one after the other. -/
theorem allgatherv_spec (parts : List (List Int)) (recv : List Int) (h : recv.length = (parts.map List.length).sum) :
    allgatherv parts (parts.map List.length) recv = parts.flatten := by
  have key : ∀ k, k ≤ parts.length → (List.range k).foldl (fun r i =>
      splice r (offset (parts.map List.length) i) ((parts.map List.length).getD i 0) (parts.getD i [])) recv =
      (parts.take k).flatten ++ recv.drop (offset (parts.map List.length) k) := by
    intro k
    induction k with
    | zero => intro _; simp [offset]
    | succ k ih =>
      intro hk
      rw [List.range_succ, List.foldl_append, ih (by omega)]
      simp only [List.foldl_cons, List.foldl_nil]
      have hk' : k < parts.length := by omega
      have hl : (parts.map List.length).getD k 0 = (parts[k]).length := by simp [List.getD, hk']
      have hp : parts.getD k [] = parts[k] := by simp [List.getD, hk']
      rw [offset_succ _ (by simpa using hk'), hl, hp]
      unfold splice
      have hn := flatten_take_length parts k
      rw [← hn, List.take_left, List.take_length, List.take_succ_eq_append_getElem hk']
      have : ((parts.take k).flatten.length + parts[k].length) = (parts.take k).flatten.length + parts[k].length := rfl
      rw [List.drop_append, List.drop_eq_nil_of_le (by omega), List.drop_drop]
      simp only [List.flatten_append, List.flatten_cons, List.flatten_nil, List.append_nil, List.nil_append, List.append_assoc]
      congr 3
      omega
  unfold allgatherv
  rw [key _ (le_refl _), List.take_length, List.drop_eq_nil_of_le, List.append_nil]
  unfold offset
  rw [List.take_of_length_le (by simp)]
  omega

/-- **C35.** After the exchange every rank has, for every rank, the list of its local seeds, in their order. -/
theorem exchange_spec (locals : List (List Seed)) : exchange locals = .ok (locals ++ [[]]) := by
  unfold exchange
  rw [mapM_ok sendBuffer (fun l => (flat l, 3 * l.length)) locals (fun l _ => sendBuffer_spec l), Outcome.ok_bind]
  have h1 : (locals.map fun l => (flat l, 3 * l.length)).map Prod.fst = locals.map flat := by simp
  have h2 : (locals.map fun l => (flat l, 3 * l.length)).map Prod.snd = (locals.map flat).map List.length := by
    simp [flat_length]
  dsimp only
  rw [h1, h2, allgatherv_spec _ _ (by simp)]
  rw [mapM_ok _ (fun i => locals.getD i []) (List.range locals.length)]
  · rw [Outcome.ok_bind]
    congr 2
    apply List.ext_getElem
    · simp
    · intro i h1 h2
      simp [List.getD, h2]
  · intro i hi
    have hi' : i < locals.length := List.mem_range.1 hi
    have e : (locals.map flat).flatten.drop (offset ((locals.map flat).map List.length) i) =
        flat (locals.getD i []) ++ ((locals.map flat).drop (i + 1)).flatten := by
      rw [← flatten_take_length]
      conv_lhs => rw [← List.take_append_drop i (locals.map flat)]
      rw [List.flatten_append, List.take_append_of_le_length (by simp; omega), List.take_take, Nat.min_self, List.drop_left,
        List.drop_eq_getElem_cons (by simpa using hi')]
      simp [List.getD, hi']
    have e' : ((locals.map flat).map List.length).getD i 0 = 3 * (locals.getD i []).length := by
      simp [List.getD, hi', flat_length]
    rw [e, e', fromBuffer_spec]
    simp

example : exchange [[⟨1, 2, 3⟩], [], [⟨4, 5, 6⟩, ⟨7, 8, 9⟩]] = .ok [[⟨1, 2, 3⟩], [], [⟨4, 5, 6⟩, ⟨7, 8, 9⟩], []] :=
  exchange_spec _

/-! ## Exact tessellation -/

/-- Squared Euclidean distance. -/
def sqDist (d : Nat) (x : Nat → Int) (s : Seed) : Int := ∑ j ∈ Finset.range d, (s.at j - x j) ^ 2

theorem radiussq_eq {d : Nat} {x : Nat → Int} {s : Seed} (h : sqDist d x s < 2 ^ 31) : radiussq d x s.at = .ok (sqDist d x s) := by
  have : ∑ j ∈ Finset.range d, (s.at j - x j) * (s.at j - x j) = sqDist d x s := Finset.sum_congr rfl fun j _ => (sq _).symm
  unfold radiussq
  dsimp only
  rw [this, if_pos h]

/-- `i` is the number of the first of the seeds nearest to `x`. -/
def Nearest (d : Nat) (l : List Seed) (x : Nat → Int) (i : Nat) : Prop :=
  ∃ s, l[i]? = some s ∧ (∀ (j : Nat) t, l[j]? = some t → sqDist d x s ≤ sqDist d x t) ∧
    ∀ (j : Nat) t, j < i → l[j]? = some t → sqDist d x s < sqDist d x t

/-- There is at most one such number. -/
theorem nearest_unique {d : Nat} {l : List Seed} {x : Nat → Int} {i j : Nat} (hi : Nearest d l x i) (hj : Nearest d l x j) : i = j := by
  obtain ⟨s, a1, a2, a3⟩ := hi
  obtain ⟨t, b1, b2, b3⟩ := hj
  rcases Nat.lt_trichotomy i j with h | h | h
  · have := b3 i s h a1; have := a2 j t b1; omega
  · exact h
  · have := a3 j t h b1; have := b2 i s a1; omega

/-- The seed is in the box of all grids. -/
def InBox (d : Nat) (g0 g1 : Nat → Int) (s : Seed) : Prop := ∀ j, j < d → g0 j ≤ s.at j ∧ s.at j < g1 j

theorem check_noop {x x0 x1 g0 g1 : Int} {b0 b1 B0 B1 : BC} (h0 : g0 ≤ x0) (h1 : x1 ≤ g1)
    (hb0 : b0 = if x0 ≠ g0 then .parallel else B0) (hb1 : b1 = if x1 ≠ g1 then .parallel else B1) (hx : g0 ≤ x ∧ x < g1) :
    checkBoundary .mpi x x0 x1 b0 b1 = x := by
  unfold checkBoundary
  split_ifs with c1 c2 c3 c4 c5 c6 c7 c8
  · rw [hb0, if_pos (by omega)] at c2; rcases c2 with h | h <;> cases h
  · exact absurd c3.1 (by decide)
  · rw [hb0, if_pos (by omega)] at c4; cases c4
  · rfl
  · rw [hb1, if_pos (by omega)] at c6; rcases c6 with h | h <;> cases h
  · exact absurd c7.1 (by decide)
  · rw [hb1, if_pos (by omega)] at c8; cases c8
  · rfl
  · rfl

/-- Inside a parallel program, `check_boundary` moves no seed of the box. -/
theorem image_eq {w : World} {np : Nat} (h : w.Ok np) {r : Int} (hr : IsRank np r) {s : Seed} (hs : InBox w.d w.g0 w.g1 s) :
    image (w.shape r) s = s.at := by
  funext d
  unfold image
  split_ifs with hd
  · exact check_noop (rank_room h hr hd).1 (rank_room h hr hd).2.1 rfl rfl (hs d hd)
  · rfl

/-- What the search has found after the seeds of `l`. -/
def Found (d : Nat) (x : Nat → Int) (l : List Seed) (b : Best) : Prop :=
  b.count = (l.length : Int) - 1 ∧ (l = [] → b.distance = 2 ^ 31 - 1 ∧ b.identity = -1) ∧
    (l ≠ [] → ∃ i : Nat, b.identity = i ∧ Nearest d l x i ∧ ∃ s, l[i]? = some s ∧ b.distance = sqDist d x s)

theorem found_step {g : Shape} {x : Nat → Int} {l : List Seed} {b : Best} {s : Seed} (h : Found g.dim x l b)
    (hi : image g s = s.at) (hd : sqDist g.dim x s < 2 ^ 31 - 1) : ∃ b', Best.seed g x b s = .ok b' ∧ Found g.dim x (l ++ [s]) b' := by
  obtain ⟨h1, h2, h3⟩ := h
  have e : Best.seed g x b s = .ok (Best.consider { b with count := b.count + 1 } (sqDist g.dim x s)) := by
    unfold Best.seed
    dsimp only
    rw [radiussq_eq (by omega), Outcome.ok_bind, if_pos]
    rw [hi]; simp
  refine ⟨_, e, ?_⟩
  have get_l : ∀ (j : Nat) t, (l ++ [s])[j]? = some t → (j < l.length ∧ l[j]? = some t) ∨ (j = l.length ∧ t = s) := by
    intro j t hj
    rcases Nat.lt_trichotomy j l.length with hl | hl | hl
    · rw [List.getElem?_append_left hl] at hj; exact .inl ⟨hl, hj⟩
    · subst hl
      rw [List.getElem?_append_right (le_refl _), Nat.sub_self] at hj
      cases hj; exact .inr ⟨rfl, rfl⟩
    · rw [List.getElem?_eq_none (by simp; omega)] at hj; cases hj
  have get_s : (l ++ [s])[l.length]? = some s := by simp
  by_cases hl : l = []
  · obtain ⟨a1, a2⟩ := h2 hl
    subst hl
    have hlt : sqDist g.dim x s < b.distance := by omega
    unfold Best.consider
    rw [if_pos hlt]
    refine ⟨by simp at h1 ⊢; omega, by simp, fun _ => ⟨0, by simp at h1 ⊢; omega, ⟨s, get_s, fun j t hj => ?_, fun j t hj => by omega⟩, s, get_s, rfl⟩⟩
    rcases get_l j t hj with ⟨c, _⟩ | ⟨_, rfl⟩
    · simp at c
    · exact le_refl _
  · obtain ⟨i, b1, ⟨t, c1, c2, c3⟩, t', c4, c5⟩ := h3 hl
    rw [c1] at c4; cases c4
    have hil : i < l.length := (List.getElem?_eq_some_iff.1 c1).1
    unfold Best.consider
    dsimp only
    split_ifs with hlt
    · refine ⟨by simp; omega, by simp, fun _ => ⟨l.length, by simp; omega, ⟨s, get_s, fun j t hj => ?_, fun j t hjl hj => ?_⟩, s, get_s, rfl⟩⟩
      · rcases get_l j t hj with ⟨_, c⟩ | ⟨_, rfl⟩
        · have := c2 j t c; omega
        · exact le_refl _
      · rcases get_l j t hj with ⟨_, c⟩ | ⟨c, _⟩
        · have := c2 j t c; omega
        · omega
    · have ht : (l ++ [s])[i]? = some t := by rw [List.getElem?_append_left hil]; exact c1
      refine ⟨by simp; omega, by simp, fun _ => ⟨i, b1, ⟨t, ht, fun j u hj => ?_, fun j u hji hj => ?_⟩, t, ht, c5⟩⟩
      · rcases get_l j u hj with ⟨_, c⟩ | ⟨_, rfl⟩
        · exact c2 j u c
        · omega
      · rcases get_l j u hj with ⟨_, c⟩ | ⟨c, _⟩
        · exact c3 j u hji c
        · omega

theorem found_list {g : Shape} {x : Nat → Int} (l' : List Seed) : ∀ {l : List Seed} {b : Best}, Found g.dim x l b →
    (∀ s ∈ l', image g s = s.at ∧ sqDist g.dim x s < 2 ^ 31 - 1) →
    ∃ b', l'.foldlM (Best.seed g x) b = .ok b' ∧ Found g.dim x (l ++ l') b' := by
  induction l' with
  | nil => intro l b h _; exact ⟨b, rfl, by simpa using h⟩
  | cons s l' ih =>
    intro l b h hs
    obtain ⟨b1, e1, f1⟩ := found_step h (hs s (by simp)).1 (hs s (by simp)).2
    obtain ⟨b2, e2, f2⟩ := ih f1 fun t ht => hs t (by simp [ht])
    refine ⟨b2, ?_, by simpa using f2⟩
    rw [List.foldlM_cons, e1]; exact e2

theorem foldlM_flatten {α β : Type} (f : β → α → Outcome β) (ls : List (List α)) : ∀ b, ls.foldlM (fun b l => l.foldlM f b) b = ls.flatten.foldlM f b := by
  induction ls with
  | nil => intro b; rfl
  | cons l ls ih =>
    intro b
    rw [List.foldlM_cons, List.flatten_cons, List.foldlM_append]
    congr 1
    funext b
    exact ih b

/-- The identity found for a node. -/
theorem nodeIdentity_spec {g : Shape} {seeds : List (List Seed)} {x : Nat → Int}
    (hs : ∀ s ∈ seeds.flatten, image g s = s.at ∧ sqDist g.dim x s < 2 ^ 31 - 1) (hne : seeds.flatten ≠ []) :
    ∃ i : Nat, nodeIdentity g seeds x = .ok i ∧ Nearest g.dim seeds.flatten x i := by
  have h0 : Found g.dim x [] ⟨2 ^ 31 - 1, -1, -1⟩ := ⟨rfl, fun _ => ⟨rfl, rfl⟩, fun h => absurd rfl h⟩
  obtain ⟨b, e, f⟩ := found_list seeds.flatten h0 hs
  obtain ⟨i, hi, hn, _⟩ := f.2.2 (by simpa using hne)
  refine ⟨i, ?_, by simpa using hn⟩
  unfold nodeIdentity
  rw [foldlM_flatten, e, Outcome.ok_bind, hi]

theorem foldlM_congr_mem {α β : Type} {f f' : β → α → Outcome β} (l : List α) (h : ∀ b, ∀ a ∈ l, f b a = f' b a) :
    ∀ b, l.foldlM f b = l.foldlM f' b := by
  induction l with
  | nil => intro b; rfl
  | cons a l ih =>
    intro b
    rw [List.foldlM_cons, List.foldlM_cons, h b a (by simp)]
    congr 1
    funext b
    exact ih (fun b a ha => h b a (by simp [ha])) b

/-- A loop over the nodes that changes the cell of its own node. -/
theorem inPlace_spec {V : Type} {g : Shape} (hg : g.Wf) (f : Int → V → V) (data : Int → V) :
    ∃ data', (List.range g.nodes.toNat).foldlM (fun data (n : Nat) => (deref g data (g.atNode .mpi n)).bind fun c =>
        store g data (g.atNode .mpi n) (f n c)) data = Outcome.ok data' ∧
      (∀ i, 0 ≤ i → i < g.nodes → data' (g.atNode .mpi i) = f i (data (g.atNode .mpi i))) ∧
      (∀ p, (∀ i, 0 ≤ i → i < g.nodes → g.atNode .mpi i ≠ p) → data' p = data p) := by
  have hser : Build.mpi = .serial → g.ghosts = 0 := fun h => by cases h
  have key : ∀ n : Nat, (n : Int) ≤ g.nodes → ∃ data', (List.range n).foldlM (fun data (n : Nat) => (deref g data (g.atNode .mpi n)).bind fun c =>
        store g data (g.atNode .mpi n) (f n c)) data = Outcome.ok data' ∧
      (∀ i : Int, 0 ≤ i → i < n → data' (g.atNode .mpi i) = f i (data (g.atNode .mpi i))) ∧
      (∀ p, (∀ i : Int, 0 ≤ i → i < n → g.atNode .mpi i ≠ p) → data' p = data p) := by
    intro n
    induction n with
    | zero => intro _; exact ⟨data, rfl, fun i h0 h1 => absurd h1 (by omega), fun _ _ => rfl⟩
    | succ n ih =>
      intro hn
      obtain ⟨data', e, hv, hp⟩ := ih (by omega)
      have hb : 0 ≤ g.atNode .mpi n ∧ g.atNode .mpi n < g.cells := by
        rw [atNode_raw hg hser (by omega) (by omega)]
        exact Shape.rawOffset_bounds hg (isCell_of_isNode hg.ghosts (Shape.position_isNode hg (by omega) (by omega)))
      have hst : ∀ v, store g data' (g.atNode .mpi n) v = .ok (Function.update data' (g.atNode .mpi n) v) := by
        intro v; unfold store; exact if_pos hb
      have hde : deref g data' (g.atNode .mpi n) = .ok (data (g.atNode .mpi n)) := by
        unfold deref
        rw [hp _ fun i h0 h1 e => by
          have := atNode_inj hg hser h0 (by omega) (by omega) (by omega) e
          omega]
        exact if_pos hb
      refine ⟨Function.update data' (g.atNode .mpi n) (f n (data (g.atNode .mpi n))), ?_, ?_, ?_⟩
      · rw [List.range_succ, List.foldlM_append, e]
        simp only [List.foldlM_cons, List.foldlM_nil, Outcome.bind_eq, Outcome.ok_bind, Outcome.pure_eq, hde, hst]
      · intro i h0 h1
        by_cases ei : i = n
        · subst ei; rw [Function.update_self]
        · rw [Function.update_of_ne fun e => ei (atNode_inj hg hser h0 (by omega) (by omega) (by omega) e)]
          exact hv i h0 (by omega)
      · intro p hp'
        rw [Function.update_of_ne fun e => hp' n (by omega) (by omega) e.symm]
        exact hp p fun i h0 h1 => hp' i h0 (by omega)
  have hnn : 0 ≤ g.nodes := by
    rw [Shape.nodes_eq hg]; exact Finset.prod_nonneg fun k hk => by have := hg.side k (Finset.mem_range.mp hk); omega
  obtain ⟨data', e, hv, hp⟩ := key g.nodes.toNat (by omega)
  have ht : ((g.nodes.toNat : Nat) : Int) = g.nodes := Int.toNat_of_nonneg hnn
  rw [ht] at hv hp
  exact ⟨data', e, hv, hp⟩

/-- **C33.** Exact tessellation in parallel: on every rank every node receives the number of the first of the nearest seeds, in plain
Euclidean distance. The number depends on the list of all seeds only, not on the rank or the decomposition. -/
theorem exactVoronoi_nearest {T : Type} [Zero T] [One T] {w : World} {np : Nat} (h : w.Ok np) {r : Int} (hr : IsRank np r)
    {seeds : List (List Seed)} (hbox : ∀ s ∈ seeds.flatten, InBox w.d w.g0 w.g1 s) (hne : seeds.flatten ≠ [])
    (hsmall : ∀ s ∈ seeds.flatten, ∀ x, InGlobal w.d w.g0 w.g1 x → sqDist w.d x s < 2 ^ 31 - 1) (data : Int → Sparse.Cell T) :
    ∃ data', exactVoronoi (w.shape r) seeds data = .ok data' ∧ ∀ x, (w.shape r).IsNode x →
      ∃ i : Nat, Nearest w.d seeds.flatten x i ∧ cellAt (w.shape r) data' x = Sparse.update (cellAt (w.shape r) data x) i fun _ => 1 := by
  have hg := shape_wf h hr
  have hd : (w.shape r).dim = w.d := rfl
  have hid : ∀ x, (w.shape r).IsNode x → ∃ i : Nat, nodeIdentity (w.shape r) seeds x = .ok i ∧ Nearest w.d seeds.flatten x i := by
    intro x hx
    exact nodeIdentity_spec (fun s hs => ⟨image_eq h hr (hbox s hs), hsmall s hs x (isNode_global h.setup hr hx)⟩) hne
  classical
  let F : Int → Nat := fun n => if hn : 0 ≤ n ∧ n < (w.shape r).nodes then (hid _ (Shape.position_isNode hg hn.1 hn.2)).choose else 0
  have hF : ∀ n, 0 ≤ n → n < (w.shape r).nodes → nodeIdentity (w.shape r) seeds ((w.shape r).position n) = .ok (F n) ∧
      Nearest w.d seeds.flatten ((w.shape r).position n) (F n) := by
    intro n h0 h1
    have := (hid _ (Shape.position_isNode hg h0 h1)).choose_spec
    simp only [F, dif_pos (show 0 ≤ n ∧ n < (w.shape r).nodes from ⟨h0, h1⟩)]
    exact this
  obtain ⟨data', e, hv, _⟩ := inPlace_spec hg (fun n c => Sparse.update c (F n) fun _ => (1 : T)) data
  refine ⟨data', ?_, ?_⟩
  · rw [← e]
    unfold exactVoronoi
    refine foldlM_congr_mem _ (fun b n hn => ?_) data
    have hn' := List.mem_range.1 hn
    rw [(hF n (by omega) (by omega)).1, Outcome.ok_bind]
  · intro x hx
    obtain ⟨n, ⟨h0, h1, hs⟩, _⟩ := Shape.position_surj hg hx
    refine ⟨F n, ?_, ?_⟩
    · obtain ⟨s, a, b, c⟩ := (hF n h0 h1).2
      have : ∀ t, sqDist w.d ((w.shape r).position n) t = sqDist w.d x t := fun t =>
        Finset.sum_congr rfl fun j hj => by rw [hs j (Finset.mem_range.1 hj)]
      simp only [this] at b c
      exact ⟨s, a, b, c⟩
    · unfold cellAt
      rw [← rawOffset_congr hs, ← atNode_raw (bd := .mpi) hg (fun h => by cases h) h0 h1, hv n h0 h1]

/-- **C33, C35.** The whole of `tessellate` in parallel, started on cells without entries: on every rank every node ends with the one
entry whose index is the number, in the order of ranks, of the first of the seeds nearest to it. -/
theorem tessellateMpi_spec {T : Type} [Zero T] [One T] {w : World} {np : Nat} (h : w.Ok np) {r : Int} (hr : IsRank np r)
    {locals : List (List Seed)} (hbox : ∀ s ∈ locals.flatten, InBox w.d w.g0 w.g1 s) (hne : locals.flatten ≠ [])
    (hsmall : ∀ s ∈ locals.flatten, ∀ x, InGlobal w.d w.g0 w.g1 x → sqDist w.d x s < 2 ^ 31 - 1) {data : Int → Sparse.Cell T}
    (hempty : ∀ x, (w.shape r).IsNode x → cellAt (w.shape r) data x = []) :
    ∃ data', tessellateMpi (w.shape r) locals data = .ok data' ∧ ∀ x, (w.shape r).IsNode x →
      ∃ i : Nat, Nearest w.d locals.flatten x i ∧ cellAt (w.shape r) data' x = [((i : Int), (1 : T))] := by
  have hfl : (locals ++ [[]]).flatten = locals.flatten := by simp
  obtain ⟨data', e, hv⟩ := exactVoronoi_nearest h hr (seeds := locals ++ [[]]) (by rwa [hfl]) (by rwa [hfl]) (by rwa [hfl]) data
  refine ⟨data', by unfold tessellateMpi; rw [exchange_spec, Outcome.ok_bind]; exact e, fun x hx => ?_⟩
  obtain ⟨i, hi, hc⟩ := hv x hx
  rw [hfl] at hi
  refine ⟨i, hi, ?_⟩
  rw [hc, hempty x hx]
  exact Sparse.update_nil _ _

/-- **C33.** Two ranks, or two runs with the same seeds in the same order on different numbers of ranks, agree. -/
theorem tessellation_independent {T : Type} [Zero T] [One T] {w w' : World} {np np' : Nat} (h : w.Ok np) (h' : w'.Ok np')
    (hd : w'.d = w.d) (h0 : w'.g0 = w.g0) (h1 : w'.g1 = w.g1) {r r' : Int} (hr : IsRank np r) (hr' : IsRank np' r')
    {locals locals' : List (List Seed)} (hl : locals'.flatten = locals.flatten) (hbox : ∀ s ∈ locals.flatten, InBox w.d w.g0 w.g1 s)
    (hne : locals.flatten ≠ []) (hsmall : ∀ s ∈ locals.flatten, ∀ x, InGlobal w.d w.g0 w.g1 x → sqDist w.d x s < 2 ^ 31 - 1)
    {data data' : Int → Sparse.Cell T}
    (he : ∀ x, (w.shape r).IsNode x → cellAt (w.shape r) data x = []) (he' : ∀ x, (w'.shape r').IsNode x → cellAt (w'.shape r') data' x = []) :
    ∃ res res', tessellateMpi (w.shape r) locals data = .ok res ∧ tessellateMpi (w'.shape r') locals' data' = .ok res' ∧
      ∀ x, (w.shape r).IsNode x → (w'.shape r').IsNode x → cellAt (w.shape r) res x = cellAt (w'.shape r') res' x := by
  obtain ⟨res, e, hv⟩ := tessellateMpi_spec h hr hbox hne hsmall he
  obtain ⟨res', e', hv'⟩ := tessellateMpi_spec h' hr' (locals := locals') (by rwa [hl, hd, h0, h1]) (by rwa [hl])
    (by rwa [hl, hd, h0, h1]) he'
  refine ⟨res, res', e, e', fun x hx hx' => ?_⟩
  obtain ⟨i, a, b⟩ := hv x hx
  obtain ⟨j, c, d⟩ := hv' x hx'
  rw [hl, hd] at c
  rw [b, d, nearest_unique a c]

/-! ## Seeds read from a file -/

theorem mem_localSeeds {g : Shape} {file : List Seed} {s : Seed} : s ∈ localSeeds g file ↔ s ∈ file ∧ g.IsNode s.at := by
  unfold localSeeds
  rw [List.mem_filter]
  refine and_congr_right fun _ => ?_
  simp only [List.all_eq_true, List.mem_range, Bool.not_eq_true', Bool.or_eq_false_iff, decide_eq_false_iff_not, not_lt, ge_iff_le, not_le]
  exact Iff.rfl

theorem sum_single (c r0 : Nat) (n : Nat) : ((List.range n).map fun r => if r = r0 then c else 0).sum = if r0 < n then c else 0 := by
  induction n with
  | zero => simp
  | succ n ih =>
    rw [List.range_succ, List.map_append, List.sum_append, ih]
    simp only [List.map_cons, List.map_nil, List.sum_cons, List.sum_nil]
    split_ifs <;> omega

/-- **C35.** Every seed of the file inside the box ends up in the exchanged list as often as it is in the file, no other does:
each is kept by exactly one rank. -/
theorem fileSeeds_count {w : World} {np : Nat} (h : w.Ok np) (file : List Seed) :
    ∃ seeds, exchange ((List.range np).map fun (r : Nat) => localSeeds (w.shape (r : Int)) file) = .ok seeds ∧
      ∀ s, (InGlobal w.d w.g0 w.g1 s.at → seeds.flatten.count s = file.count s) ∧
        (¬ InGlobal w.d w.g0 w.g1 s.at → seeds.flatten.count s = 0) := by
  refine ⟨_, exchange_spec _, fun s => ⟨fun hs => ?_, fun hs => ?_⟩⟩
  · obtain ⟨r0, ⟨a, b, e⟩, hu⟩ := partition (np := np) h.setup.grid h.setup.box hs
    rw [List.flatten_append, List.count_append, List.count_flatten, List.map_map]
    have : (List.range np).map (List.count s ∘ fun (r : Nat) => localSeeds (w.shape (r : Int)) file) =
        (List.range np).map fun r => if r = r0.toNat then file.count s else 0 := by
      apply List.map_congr_left
      intro r hr
      have hr' := List.mem_range.1 hr
      show (localSeeds (w.shape (r : Int)) file).count s = _
      split_ifs with hc
      · unfold localSeeds
        rw [List.count_filter]
        have hn : (w.shape (r : Int)).IsNode s.at := by
          have : (r : Int) = r0 := by omega
          rw [this]; exact e
        simp only [List.all_eq_true, List.mem_range, Bool.not_eq_true', Bool.or_eq_false_iff, decide_eq_false_iff_not, not_lt, ge_iff_le, not_le]
        exact hn
      · rw [List.count_eq_zero]
        intro hm
        have := hu r (by omega) (by omega) (mem_localSeeds.1 hm).2
        omega
    rw [this, sum_single, if_pos (by omega)]
    simp
  · rw [List.count_eq_zero, List.mem_flatten]
    rintro ⟨l, hl, hm⟩
    rcases List.mem_append.1 hl with hl | hl
    · obtain ⟨r, hr, rfl⟩ := List.mem_map.1 hl
      have hr' := List.mem_range.1 hr
      exact hs (isNode_global h.setup (r := (r : Int)) ⟨by omega, by omega⟩ (mem_localSeeds.1 hm).2)
    · rw [List.mem_singleton.1 hl] at hm; cases hm

/-- **C35.** Two numbers of ranks give permutations of the same list. -/
theorem fileSeeds_same {w w' : World} {np np' : Nat} (h : w.Ok np) (h' : w'.Ok np') (hd : w'.d = w.d) (h0 : w'.g0 = w.g0)
    (h1 : w'.g1 = w.g1) (file : List Seed) :
    ∃ seeds seeds', exchange ((List.range np).map fun (r : Nat) => localSeeds (w.shape (r : Int)) file) = .ok seeds ∧
      exchange ((List.range np').map fun (r : Nat) => localSeeds (w'.shape (r : Int)) file) = .ok seeds' ∧
      seeds.flatten.Perm seeds'.flatten := by
  obtain ⟨s, e, c⟩ := fileSeeds_count h file
  obtain ⟨s', e', c'⟩ := fileSeeds_count h' file
  refine ⟨s, s', e, e', List.perm_iff_count.2 fun a => ?_⟩
  by_cases ha : InGlobal w.d w.g0 w.g1 a.at
  · rw [(c a).1 ha, (c' a).1 (by rwa [hd, h0, h1])]
  · rw [(c a).2 ha, (c' a).2 (by rwa [hd, h0, h1])]

/-! ## Periodic distance is not used -/

/-- Ten nodes on a periodic line, on one rank. -/
def line : Shape := rankShape 1 (fun _ => 0) (fun _ => 10) 1 (fun _ => 1) 0

/-- **C33, negative.** On a periodic line of ten nodes with seeds at 0 and 5, node 9 next to seed 0 across the boundary gets seed 5, at
distance 4: `check_boundary` never moves a seed that lies inside. -/
theorem exact_not_periodic : line.b0 0 = .periodic ∧ line.b1 0 = .periodic ∧ line.x0 0 = 0 ∧ line.x1 0 = 10 ∧
    nodeIdentity line [[⟨0, 0, 0⟩, ⟨5, 0, 0⟩]] (fun _ => 9) = .ok 1 := by
  refine ⟨by decide +kernel, by decide +kernel, by decide +kernel, by decide +kernel, by decide +kernel⟩

/-- Two ranks of a square. -/
def sampleWorld : World := { d := 2, g0 := fun _ => 0, g1 := fun _ => 4, ghosts := 1, p := fun j => if j = 0 then 2 else 1, B0 := fun _ => .periodic, B1 := fun _ => .neumann }

example : sampleWorld.Ok 2 ∧ (∀ s ∈ [[(⟨0, 0, 0⟩ : Seed)], [⟨3, 2, 0⟩]].flatten, InBox sampleWorld.d sampleWorld.g0 sampleWorld.g1 s) ∧
    (∀ s ∈ [[(⟨0, 0, 0⟩ : Seed)], [⟨3, 2, 0⟩]].flatten, ∀ x, InGlobal sampleWorld.d sampleWorld.g0 sampleWorld.g1 x →
      sqDist sampleWorld.d x s < 2 ^ 31 - 1) := by
  have hj2 : ∀ j, j < 2 → j = 0 ∨ j = 1 := by intro j hj; omega
  have hbox : ∀ s ∈ [[(⟨0, 0, 0⟩ : Seed)], [⟨3, 2, 0⟩]].flatten, InBox sampleWorld.d sampleWorld.g0 sampleWorld.g1 s := by
    intro s hs j hj
    simp at hs
    rcases hs with rfl | rfl <;> rcases hj2 j hj with rfl | rfl <;> decide
  refine ⟨⟨⟨⟨fun j hj => ?_, by decide⟩, by decide, fun j hj => ?_, by decide, fun j hj => ?_, fun r h0 h1 j hj => ?_⟩, fun j hj => ?_, fun j hj h => ?_⟩, hbox, ?_⟩
  · rcases hj2 j hj with rfl | rfl <;> decide
  · rcases hj2 j hj with rfl | rfl <;> decide
  · rcases hj2 j hj with rfl | rfl <;> decide
  · have hr : r = 0 ∨ r = 1 := by omega
    rcases hj2 j hj with rfl | rfl <;> rcases hr with rfl | rfl <;> decide +kernel
  · exact ⟨show BC.periodic ≠ BC.parallel by decide, show BC.neumann ≠ BC.parallel by decide⟩
  · rcases h with h | h
    · exact absurd h (show BC.periodic ≠ BC.mirror by decide)
    · exact absurd h (show BC.neumann ≠ BC.mirror by decide)
  · intro s hs x hx
    have e : sqDist sampleWorld.d x s = (s.at 0 - x 0) ^ 2 + (s.at 1 - x 1) ^ 2 := by
      simp [sqDist, sampleWorld, Finset.sum_range_succ]
    have a0 := hbox s hs 0 (by decide)
    have a1 := hbox s hs 1 (by decide)
    have b0 := hx 0 (by decide)
    have b1 := hx 1 (by decide)
    simp only [sampleWorld] at a0 a1 b0 b1
    have c0 : (s.at 0 - x 0) ^ 2 ≤ 16 := by nlinarith
    have c1 : (s.at 1 - x 1) ^ 2 ≤ 16 := by nlinarith
    rw [e]; omega

end MMSP.Tessellate
