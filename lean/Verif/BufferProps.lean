import Verif.BufferLemmas
/-!
# Properties C13, C14: buffer round trips
-/

namespace MMSP

open Finset

/-! ## C13 -/

/-- What a user of the buffer functions relies on: the announced size is the number of bytes written, and unpacking
what was packed (followed by anything) gives the value back and consumes exactly that many bytes. -/
def RoundTrips {T : Type} (c : Cell T) : Prop :=
  ∀ v, c.Valid v → (c.enc v).length = c.size v ∧ ∀ rest, c.dec (c.enc v ++ rest) = .ok (v, c.size v)

/-- C13 for primitive cells and `scalar`. -/
theorem primCell_roundTrips {T : Type} (c : Codec T) : RoundTrips (primCell c) := by
  intro v _
  refine ⟨c.enc_length v, ?_⟩
  intro rest
  simp only [primCell, take]
  rw [if_pos (by simp [c.enc_length])]
  simp only [Outcome.ok_bind]
  rw [List.take_append_of_le_length (by rw [c.enc_length]), List.take_of_length_le (by rw [c.enc_length]), c.dec_enc]

/-- C13 for `vector` cells of any length. -/
theorem vectorCell_roundTrips {T : Type} (c : Codec T) : RoundTrips (arrayCell c) := by
  intro v hv
  have hv : v.length < 2 ^ 31 := hv
  refine ⟨by simp only [arrayCell, List.length_append, flatMap_enc_length, intBytes_length], ?_⟩
  intro rest
  simp only [arrayCell, List.append_assoc]
  rw [readInt_intBytes (by omega) (by omega)]
  simp only [Outcome.ok_bind]
  rw [if_neg (by omega)]
  have hd : (intBytes (v.length : Int) ++ (v.flatMap c.enc ++ rest)).drop 4 = v.flatMap c.enc ++ rest := by
    rw [← intBytes_length (v.length : Int), List.drop_left]
  rw [hd]
  simp only [Int.toNat_natCast, take]
  rw [if_pos (by rw [List.length_append, flatMap_enc_length]; omega)]
  simp only [Outcome.ok_bind]
  have ht : (v.flatMap c.enc ++ rest).take (v.length * c.width) = v.flatMap c.enc := by
    rw [← flatMap_enc_length, List.take_left]
  rw [ht]
  have := decArray_enc c v []
  rw [List.append_nil] at this
  rw [this]

/-- C13 for `sparse` cells: index, padding and value of every item survive. -/
theorem sparseCell_roundTrips {T : Type} (c : Codec T) (pad : Nat) (pad0 : { l : List Byte // l.length = pad }) :
    RoundTrips (arrayCell (itemCodec c pad pad0)) :=
  vectorCell_roundTrips _

/-- C13: a buffer whose size field is negative ends the process (`new T[size]` throws, and nothing catches it). -/
theorem vectorCell_negative {T : Type} (c : Codec T) {n : Int} (h0 : -2 ^ 31 ≤ n) (h1 : n < 0) (rest : List Byte) :
    (arrayCell c).dec (intBytes n ++ rest) = .abort 134 := by
  simp only [arrayCell]
  rw [readInt_intBytes (by omega) (by omega)]
  simp only [Outcome.ok_bind]
  rw [if_pos h1]

/-- C13: a buffer that ends too early is read past its end (the functions take no length). -/
theorem vectorCell_truncated {T : Type} (c : Codec T) (v : List T) (hv : (arrayCell c).Valid v) (m : Nat)
    (hm : m < (arrayCell c).size v) : (arrayCell c).dec (((arrayCell c).enc v).take m) = .ub := by
  have hv : v.length < 2 ^ 31 := hv
  have hm : m < 4 + v.length * c.width := hm
  simp only [arrayCell]
  by_cases h4 : m < 4
  · unfold readInt take
    rw [if_neg (by simp; omega)]; rfl
  · have hsplit : (intBytes (v.length : Int) ++ v.flatMap c.enc).take m =
        intBytes (v.length : Int) ++ (v.flatMap c.enc).take (m - 4) := by
      rw [List.take_append, intBytes_length, List.take_of_length_le (by simp; omega)]
    rw [hsplit, readInt_intBytes (by omega) (by omega)]
    simp only [Outcome.ok_bind]
    rw [if_neg (by omega)]
    have hd : (intBytes (v.length : Int) ++ (v.flatMap c.enc).take (m - 4)).drop 4 =
        (v.flatMap c.enc).take (m - 4) := by
      rw [← intBytes_length (v.length : Int), List.drop_left, intBytes_length]
    rw [hd]
    simp only [Int.toNat_natCast, take]
    rw [if_neg (by rw [List.length_take, flatMap_enc_length]; omega)]; rfl

/-- A concrete codec: `unsigned char`. -/
def byteCodec : Codec Byte where
  width := 1
  enc := fun b => [b]
  dec := fun l => l.headD 0
  enc_length := fun _ => rfl
  dec_enc := fun _ => rfl

example : (arrayCell byteCodec).Valid [7, 8, 9] ∧
    (arrayCell byteCodec).enc [7, 8, 9] = [3, 0, 0, 0, 7, 8, 9] ∧
    (arrayCell byteCodec).dec [3, 0, 0, 0, 7, 8, 9, 55] = .ok ([7, 8, 9], 7) :=
  ⟨by show 3 < 2 ^ 31; decide, by decide, by decide⟩

/-! ## C14 -/

/-- The points of the region `[mn,mx)` that a traversal with stride `st` visits. -/
def InRegion (d st : Nat) (mn mx x : Nat → Int) : Prop :=
  ∀ j, j < d → mn j ≤ x j ∧ x j < mx j ∧ (st : Int) ∣ x j - mn j

/-- The region lies in the allocated box. -/
def RegionFits (g : Shape) (st : Nat) (mn mx : Nat → Int) : Prop := ∀ x, InRegion g.dim st mn mx x → g.IsCell x

/-- Value of the grid cell at coordinate `x` (address `rawOffset`, C04). -/
def cellAt {T : Type} (g : Shape) (data : Int → T) (x : Nat → Int) : T := data (g.rawOffset x)

theorem rawOffset_congr {g : Shape} {x y : Nat → Int} (h : g.SamePoint x y) : g.rawOffset x = g.rawOffset y := by
  unfold Shape.rawOffset
  apply encode_congr
  intro j hj
  rw [h j hj]

theorem visited_full {g : Shape} {st : Nat} {mn mx : Nat → Int} :
    visited g st mn mx g.dim 0 = (points g.dim st mn mx g.dim).map g.rawOffset := by
  unfold visited
  simp only [Nat.sub_self, zero_add, offFrom_zero]

theorem points_region {d st : Nat} (hst : 0 < st) {mn mx x : Nat → Int} (h : x ∈ points d st mn mx d) : InRegion d st mn mx x := by
  intro j hj
  exact ((mem_points hst le_rfl).mp h).1 j (by omega) hj

theorem allIn_of_fits {g : Shape} (hg : g.Wf) {st : Nat} (hst : 0 < st) {mn mx : Nat → Int} (hf : RegionFits g st mn mx) :
    AllIn g (visited g st mn mx g.dim 0) := by
  rw [visited_full]
  intro o ho
  obtain ⟨x, hx, rfl⟩ := List.mem_map.mp ho
  exact Shape.rawOffset_bounds hg (hf x (points_region hst hx))

/-- C14: packing succeeds without touching anything outside the array, and writes exactly the announced number of
bytes, for cells of any (different) lengths. -/
theorem region_pack {T : Type} {c : Cell T} (hc : RoundTrips c) {g : Shape} (hg : g.Wf) {st : Nat} (hst : 0 < st) {mn mx : Nat → Int}
    (hf : RegionFits g st mn mx) {data : Int → T} (hv : ∀ o, 0 ≤ o → o < g.cells → c.Valid (data o)) :
    ∃ buf, toBuffer c g st mn mx data = .ok buf ∧ bufferSize c g st mn mx data = .ok buf.length := by
  have hin := allIn_of_fits hg hst hf
  refine ⟨_, regionTo_eq data le_rfl hin, ?_⟩
  unfold bufferSize
  rw [regionSize_eq data le_rfl hin]
  congr 1
  generalize visited g st mn mx g.dim 0 = l at hin
  induction l with
  | nil => simp
  | cons o l ih =>
    have ho := hin o (by simp)
    rw [List.map_cons, List.sum_cons, List.flatMap_cons, List.length_append, (hc (data o) (hv o ho.1 ho.2)).1,
      ih (fun o ho => hin o (by simp [ho]))]

theorem inRegion_shift {d st : Nat} {mn mx δ x : Nat → Int} (h : InRegion d st mn mx x) :
    InRegion d st (fun j => mn j + δ j) (fun j => mx j + δ j) (fun j => x j + δ j) := by
  intro j hj
  obtain ⟨h1, h2, h3⟩ := h j hj
  refine ⟨by beta_reduce; omega, by beta_reduce; omega, ?_⟩
  have : x j + δ j - (mn j + δ j) = x j - mn j := by ring
  rw [this]; exact h3

theorem irange_shift (st : Nat) (a b δ : Int) : irange st (a + δ) (b + δ) = (irange st a b).map (· + δ) := by
  unfold irange
  rw [List.map_map]
  have : b + δ - (a + δ) + st - 1 = b - a + st - 1 := by omega
  rw [this]
  apply List.map_congr_left
  intro k _
  simp only [Function.comp]; ring

theorem points_shift {d st : Nat} {mn mx δ : Nat → Int} {k : Nat} (hk : k ≤ d) :
    points d st (fun j => mn j + δ j) (fun j => mx j + δ j) k = (points d st mn mx k).map fun x j => x j + δ j := by
  induction k with
  | zero => rfl
  | succ k ih =>
    simp only [points]
    rw [ih (by omega), irange_shift, List.flatMap_map, List.map_flatMap]
    congr 1
    funext x
    rw [List.map_map, List.map_map]
    apply List.map_congr_left
    intro y _
    funext j
    simp only [Function.comp]
    by_cases hj : j = d - (k + 1)
    · subst hj; simp
    · rw [Function.update_of_ne hj, Function.update_of_ne hj]

theorem visited_congr {g : Shape} {st : Nat} {mn mx mn' mx' : Nat → Int}
    (h : ∀ j, j < g.dim → mn j = mn' j ∧ mx j = mx' j) {k : Nat} (hk : k ≤ g.dim) (p : Int) :
    visited g st mn mx k p = visited g st mn' mx' k p := by
  induction k generalizing p with
  | zero => rw [visited_zero, visited_zero]
  | succ k ih =>
    rw [visited_succ hk, visited_succ hk]
    have := h (g.dim - (k + 1)) (by omega)
    rw [this.1, this.2]
    congr 1
    funext x
    exact ih (by omega) _

theorem fromBuffer_congr {T : Type} {c : Cell T} {g : Shape} {st : Nat} {mn mx mn' mx' : Nat → Int}
    (h : ∀ j, j < g.dim → mn j = mn' j ∧ mx j = mx' j) (buf : List Byte) (data : Int → T) :
    fromBuffer c g st mn mx buf data = fromBuffer c g st mn' mx' buf data := by
  unfold fromBuffer
  rw [regionFrom_eq _ le_rfl, regionFrom_eq _ le_rfl, visited_congr h le_rfl]

theorem decodeAt_packed {T : Type} {c : Cell T} (hc : RoundTrips c) {g : Shape} {src : Int → T}
    (L : List (Int × Int)) (hv : ∀ q ∈ L, c.Valid (src q.1)) (hin : ∀ q ∈ L, 0 ≤ q.2 ∧ q.2 < g.cells) (pre rest : List Byte) (data : Int → T) :
    decodeAt c g (pre ++ (L.flatMap fun q => c.enc (src q.1)) ++ rest) (L.map Prod.snd) (data, pre.length) =
      .ok (L.foldl (fun data q => Function.update data q.2 (src q.1)) data,
        pre.length + (L.flatMap fun q => c.enc (src q.1)).length) := by
  induction L generalizing pre data with
  | nil => simp [decodeAt]
  | cons q L ih =>
    have h1 := hc (src q.1) (hv q (by simp))
    simp only [decodeAt, List.map_cons, List.foldlM_cons, List.flatMap_cons]
    have hdrop : (pre ++ (c.enc (src q.1) ++ L.flatMap fun q => c.enc (src q.1)) ++ rest).drop pre.length =
        c.enc (src q.1) ++ ((L.flatMap fun q => c.enc (src q.1)) ++ rest) := by
      rw [List.append_assoc, List.drop_left, List.append_assoc]
    rw [hdrop, h1.2]
    simp only [Outcome.ok_bind]
    have hst : store g data q.2 (src q.1) = .ok (Function.update data q.2 (src q.1)) := if_pos (hin q (by simp))
    rw [hst]
    simp only [Outcome.ok_bind, Outcome.bind_eq]
    have ih' := ih (fun q hq => hv q (by simp [hq])) (fun q hq => hin q (by simp [hq])) (pre ++ c.enc (src q.1)) (Function.update data q.2 (src q.1))
    simp only [decodeAt, List.length_append, h1.1] at ih'
    simp only [List.append_assoc] at ih' ⊢
    rw [ih']
    simp only [List.foldl_cons, List.length_append, h1.1, Nat.add_assoc]

theorem foldl_update_other {T : Type} (src : Int → T) (L : List (Int × Int)) (data : Int → T) (o : Int)
    (h : ∀ q ∈ L, q.2 ≠ o) : (L.foldl (fun data q => Function.update data q.2 (src q.1)) data) o = data o := by
  induction L generalizing data with
  | nil => rfl
  | cons q L ih =>
    rw [List.foldl_cons, ih _ (fun q hq => h q (by simp [hq])), Function.update_of_ne (fun e => h q (by simp) e.symm)]

theorem foldl_update_mem {T : Type} (src : Int → T) (L : List (Int × Int)) (data : Int → T) (q : Int × Int) (hq : q ∈ L)
    (h : ∀ q' ∈ L, q'.2 = q.2 → q'.1 = q.1) :
    (L.foldl (fun data q => Function.update data q.2 (src q.1)) data) q.2 = src q.1 := by
  induction L generalizing data with
  | nil => simp at hq
  | cons a L ih =>
    rw [List.foldl_cons]
    by_cases hmem : q ∈ L
    · exact ih _ hmem (fun q' hq' => h q' (by simp [hq']))
    · have haq : q = a := by simpa [hmem] using hq
      subst haq
      by_cases hex : ∃ q' ∈ L, q'.2 = q.2
      · obtain ⟨q', hq', he⟩ := hex
        have h1 := h q' (by simp [hq']) he
        have : q' = q := Prod.ext h1 he
        exact absurd (this ▸ hq') hmem
      · rw [foldl_update_other]
        · rw [Function.update_self]
        · intro q' hq' he; exact hex ⟨q', hq', he⟩

/-- C14: unpacking, into a congruent region of another (or the same) grid, what was packed from a region, copies every
cell of the region to its image, leaves every other cell alone, and consumes exactly the bytes packed. `δ` is the
translation between the regions; the shapes of the two grids are unrelated. -/
theorem region_roundTrip {T : Type} {c : Cell T} (hc : RoundTrips c) {gs gd : Shape} (hgs : gs.Wf) (hgd : gd.Wf)
    (hdim : gs.dim = gd.dim) {st : Nat} (hst : 0 < st) {mn mx δ : Nat → Int} (hfs : RegionFits gs st mn mx)
    (hfd : RegionFits gd st (fun j => mn j + δ j) (fun j => mx j + δ j)) {src dst : Int → T}
    (hv : ∀ o, 0 ≤ o → o < gs.cells → c.Valid (src o)) (rest : List Byte) :
    ∃ buf dst', toBuffer c gs st mn mx src = .ok buf ∧
      fromBuffer c gd st (fun j => mn j + δ j) (fun j => mx j + δ j) (buf ++ rest) dst = .ok (dst', buf.length) ∧
      (∀ x, InRegion gs.dim st mn mx x → cellAt gd dst' (fun j => x j + δ j) = cellAt gs src x) ∧
      (∀ y, gd.IsCell y → ¬ InRegion gd.dim st (fun j => mn j + δ j) (fun j => mx j + δ j) y →
        cellAt gd dst' y = cellAt gd dst y) := by
  have hins := allIn_of_fits hgs hst hfs
  have hind := allIn_of_fits hgd hst hfd
  let L : List (Int × Int) := (points gs.dim st mn mx gs.dim).map fun x => (gs.rawOffset x, gd.rawOffset fun j => x j + δ j)
  have hfst : L.map Prod.fst = visited gs st mn mx gs.dim 0 := by
    rw [visited_full]; simp only [L, List.map_map]; rfl
  have hsnd : L.map Prod.snd = visited gd st (fun j => mn j + δ j) (fun j => mx j + δ j) gd.dim 0 := by
    rw [visited_full, points_shift le_rfl, ← hdim]; simp only [L, List.map_map]; rfl
  have hbuf : (visited gs st mn mx gs.dim 0).flatMap (fun o => c.enc (src o)) = L.flatMap fun q => c.enc (src q.1) := by
    rw [← hfst, List.flatMap_map]
  have hinL : ∀ q ∈ L, 0 ≤ q.2 ∧ q.2 < gd.cells := by
    intro q hq
    apply hind
    rw [← hsnd]
    exact List.mem_map_of_mem hq
  have hvL : ∀ q ∈ L, c.Valid (src q.1) := by
    intro q hq
    have := hins q.1 (by rw [← hfst]; exact List.mem_map_of_mem hq)
    exact hv _ this.1 this.2
  refine ⟨L.flatMap fun q => c.enc (src q.1),
    L.foldl (fun data q => Function.update data q.2 (src q.1)) dst, ?_, ?_, ?_, ?_⟩
  · rw [← hbuf]; exact regionTo_eq src le_rfl hins
  · unfold fromBuffer
    rw [regionFrom_eq _ le_rfl, ← hsnd]
    have := decodeAt_packed hc L hvL hinL [] rest dst
    simpa using this
  · intro x hx
    -- replace x by the listed representative of the same point
    let x' : Nat → Int := fun j => if j < gs.dim then x j else mn j
    have hx' : x' ∈ points gs.dim st mn mx gs.dim := by
      rw [mem_points hst le_rfl]
      constructor
      · intro j _ hj; simp only [x', if_pos hj]; exact hx j hj
      · intro j hj; simp only [x']; rw [if_neg (by omega)]
    have hq : (gs.rawOffset x', gd.rawOffset fun j => x' j + δ j) ∈ L := List.mem_map.mpr ⟨x', hx', rfl⟩
    have key := foldl_update_mem src L dst _ hq (by
      intro q' hq' he
      obtain ⟨z, hz, rfl⟩ := List.mem_map.mp hq'
      have hzr := points_region hst hz
      have hxr := points_region hst hx'
      have hs := Shape.rawOffset_inj (g := gd)
        (hfd _ (inRegion_shift (hdim ▸ hzr)))
        (hfd _ (inRegion_shift (hdim ▸ hxr))) he
      apply rawOffset_congr
      intro j hj
      have := hs j (hdim ▸ hj)
      beta_reduce at this
      omega)
    unfold cellAt
    have e1 : gd.rawOffset (fun j => x j + δ j) = gd.rawOffset (fun j => x' j + δ j) := by
      apply rawOffset_congr
      intro j hj
      have : j < gs.dim := hdim ▸ hj
      simp only [x', if_pos this]
    have e2 : gs.rawOffset x = gs.rawOffset x' := by
      apply rawOffset_congr
      intro j hj
      simp only [x', if_pos hj]
    rw [e1, e2]
    exact key
  · intro y hy hny
    apply foldl_update_other
    intro q hq he
    obtain ⟨z, hz, rfl⟩ := List.mem_map.mp hq
    have hzr := points_region hst hz
    apply hny
    intro j hj
    have hzc : gd.IsCell fun j => z j + δ j :=
      hfd _ (inRegion_shift (hdim ▸ hzr))
    have h1 := Shape.rawOffset_inj hzc hy he j hj
    have h2 := inRegion_shift (δ := δ) (hdim ▸ hzr) j hj
    beta_reduce at h1 h2 ⊢
    rw [← h1]; exact h2

/-- The hypotheses are satisfiable: a column of the sample box, moved one column to the right. -/
example : Shape.sample.Wf ∧ RegionFits Shape.sample 1 (fun j => if j = 0 then -1 else 5) (fun j => if j = 0 then 2 else 6) ∧
    RegionFits Shape.sample 1 (fun j => (if j = 0 then -1 else 5) + if j = 0 then 0 else 1)
      (fun j => (if j = 0 then 2 else 6) + if j = 0 then 0 else 1) := by
  refine ⟨Shape.sample_wf, ?_, ?_⟩ <;>
  · intro x hx j hj
    have h := hx j hj
    simp only [Shape.sample] at *
    split at h <;> rename_i h0 <;> simp only [h0, if_true, if_false] at * <;> omega

end MMSP
