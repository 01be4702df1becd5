import Verif.AggregatedOutput
import Verif.ParallelOutputProps
import Mathlib.Algebra.BigOperators.Group.Finset.Basic
import Mathlib.Tactic.Ring
/-!
# When the aggregating writer works

The file is cut into `nw` parts at multiples of the block size. `aggregated_iff` says exactly when the program finishes: each
interior cut must fall strictly inside the data of a rank other than 0, and no two cuts in the same rank. `aggregated_output`
says that the file is then header followed by the blocks, as on the standard path, whatever the order of the writes.
-/

namespace MMSP.FileIO.Aggregated
open Finset

theorem bind_ok {α β : Type} (a : α) (f : α → Outcome β) : (Outcome.ok a).bind f = f a := rfl

theorem getD_get {l : List Nat} {i : Nat} (h : i < l.length) : l.getD i 0 = l[i] := by simp [List.getD, h]

namespace Job
variable (j : Job)

/-! ## Specification -/

/-- The bytes of the file. -/
def bytes : List Byte := j.head ++ j.data.flatten
/-- The least number of blocks that hold the file. -/
def specBlocks : Nat := (j.bytes.length + j.B - 1) / j.B
/-- The number of parts. -/
def parts : Nat := min j.data.length j.specBlocks
/-- Where part `w` starts: blocks are dealt evenly, the first parts get one more. -/
def cut (w : Nat) : Nat := j.B * (w * (j.specBlocks / j.parts) + min w (j.specBlocks % j.parts))
/-- Where the data of rank `q` starts in the file. -/
def first (q : Nat) : Nat := (j.head ++ (j.data.take q).flatten).length

/-- Every interior cut falls strictly inside the data of a rank `T w`, never rank 0, and a later cut in a later rank. -/
structure Spread (T : Nat → Nat) : Prop where
  pos : ∀ w, 1 ≤ w → w < j.parts → 1 ≤ T w
  lt : ∀ w, 1 ≤ w → w < j.parts → T w < j.data.length
  after : ∀ w, 1 ≤ w → w < j.parts → j.first (T w) < j.cut w
  before : ∀ w, 1 ≤ w → w < j.parts → j.cut w < j.first (T w + 1)
  mono : ∀ w, 1 ≤ w → w + 1 < j.parts → T w < T (w + 1)

/-- Every part can be counted by an `int`. -/
def PartsFit : Prop := ∀ w, w < j.parts → min j.bytes.length (j.cut (w + 1)) - j.cut w < 2 ^ 31

/-- Sizes as they occur: a block size, a header, at least one rank, no empty block, and nothing near 2^31 per rank or 2^63 in all. -/
structure Sane : Prop where
  B : 0 < j.B
  head : 0 < j.head.length
  ranks : j.data ≠ []
  data : ∀ b ∈ j.data, 0 < b.length ∧ b.length < 2 ^ 31 - 1
  size : j.bytes.length + j.B < 2 ^ 63

/-! ## The model's numbers -/

theorem d_pos {j : Job} (h : j.Sane) {q : Nat} (hq : q < j.np) : 0 < j.d q ∧ j.d q < 2 ^ 31 - 1 := by
  have hq' : q < j.data.length := hq
  have : j.buf q = j.data[q] := by simp [buf, hq']
  rw [d, this]; exact h.data _ (List.getElem_mem _)

theorem start_succ (q : Nat) : j.start (q + 1) = j.start q + j.d q := by
  simp [start, Finset.sum_range_succ, Nat.add_assoc]

theorem start_mono {a b : Nat} (h : a ≤ b) : j.start a ≤ j.start b := by
  induction b with
  | zero => have : a = 0 := by omega
            subst this; exact le_refl _
  | succ b ih =>
    rcases Nat.lt_or_ge b a with hb | hb
    · have : a = b + 1 := by omega
      subst this; exact le_refl _
    · have := ih hb; rw [start_succ]; omega

theorem first_eq {q : Nat} (hq : q ≤ j.np) : j.first q = j.start q := by
  induction q with
  | zero => simp [first, start]
  | succ q ih =>
    have hq' : q < j.data.length := hq
    have hb : j.buf q = j.data[q] := by simp [buf, hq']
    have := ih (by omega)
    rw [start_succ, ← this, first, first, d, hb, List.take_succ_eq_append_getElem hq']
    simp only [List.flatten_append, List.flatten_cons, List.flatten_nil, List.length_append, List.append_nil]; omega

theorem bytes_length : j.bytes.length = j.filesize := by
  rw [filesize, ← j.first_eq (le_refl _), first, np, List.take_length, bytes]

theorem blocks_eq {j : Job} (hB : 0 < j.B) : j.blocks = j.specBlocks := by
  rw [blocks, specBlocks, bytes_length]
  have h1 := Nat.div_add_mod j.filesize j.B
  have h2 := Nat.mod_lt j.filesize hB
  have h3 : j.filesize / j.B * j.B = j.B * (j.filesize / j.B) := Nat.mul_comm _ _
  generalize hm : j.filesize % j.B = m at *
  generalize hk : j.filesize / j.B = k at *
  split_ifs with hlt
  · symm
    rw [Nat.div_eq_iff hB]
    constructor
    · have : (k + 1) * j.B = j.B * k + j.B := by ring
      omega
    · have : (k + 1) * j.B = j.B * k + j.B := by ring
      omega
  · symm
    rw [Nat.div_eq_iff hB]
    omega

theorem filesize_le {j : Job} (hB : 0 < j.B) : j.filesize ≤ j.B * j.blocks ∧ j.B * j.blocks < j.filesize + j.B := by
  have h1 := Nat.div_add_mod j.filesize j.B
  have h2 := Nat.mod_lt j.filesize hB
  have h3 : j.filesize / j.B * j.B = j.B * (j.filesize / j.B) := Nat.mul_comm _ _
  rw [blocks]
  split_ifs with hlt
  · rw [Nat.mul_add, Nat.mul_one]; omega
  · omega

theorem nwriters_eq {j : Job} (hB : 0 < j.B) : j.nwriters = j.parts := by
  rw [nwriters, parts, ← blocks_eq hB, np]; split_ifs <;> omega

theorem nwriters_pos {j : Job} (h : j.Sane) : 0 < j.nwriters := by
  have h1 := filesize_le h.B
  have h2 : 0 < j.filesize := by rw [← bytes_length, bytes, List.length_append]; have := h.head; omega
  have h3 : 0 < j.blocks := by
    rcases Nat.eq_zero_or_pos j.blocks with h0 | h0
    · rw [h0] at h1; omega
    · exact h0
  have h4 : 0 < j.np := List.length_pos_of_ne_nil h.ranks
  rw [nwriters]; split_ifs <;> omega

theorem nwriters_le : j.nwriters ≤ j.np := by rw [nwriters]; split_ifs <;> omega

theorem aoff_eq {j : Job} (hB : 0 < j.B) (w : Nat) : j.aoff w = j.cut w := by
  rw [cut, ← blocks_eq hB, ← nwriters_eq hB]
  have hx : j.excess = j.blocks % j.nwriters := rfl
  rw [← hx]
  induction w with
  | zero => simp [aoff]
  | succ w ih =>
    rw [aoff, ih, writesize]
    generalize j.blocks / j.nwriters = k
    split_ifs with hw
    · rw [Nat.min_eq_left hw, Nat.min_eq_left (by omega)]; ring
    · rw [Nat.min_eq_right (by omega : j.excess ≤ w + 1), Nat.min_eq_right (by omega)]; ring

theorem aoff_succ (w : Nat) : j.aoff (w + 1) = j.aoff w + (if w ≥ j.excess then j.writesize else j.writesize + j.B) := by
  rw [aoff]; split_ifs <;> omega

theorem aoff_mono {a b : Nat} (h : a ≤ b) : j.aoff a ≤ j.aoff b := by
  induction b with
  | zero => have : a = 0 := by omega
            subst this; exact le_refl _
  | succ b ih =>
    rcases Nat.lt_or_ge b a with hb | hb
    · have : a = b + 1 := by omega
      subst this; exact le_refl _
    · have := ih hb; rw [aoff_succ]; omega

theorem aoff_last {j : Job} (h : j.Sane) : j.aoff j.nwriters = j.B * j.blocks := by
  have hn := nwriters_pos h
  rw [aoff_eq h.B, cut, ← blocks_eq h.B, ← nwriters_eq h.B]
  have h1 := Nat.div_add_mod j.blocks j.nwriters
  have h2 := Nat.mod_lt j.blocks hn
  rw [Nat.min_eq_right (by omega)]
  rw [h1]

theorem excess_lt {j : Job} (h : j.Sane) : j.excess < j.nwriters := Nat.mod_lt _ (nwriters_pos h)

theorem start_lt {j : Job} (h : j.Sane) {q : Nat} (hq : q ≤ j.np) : j.start q < 2 ^ 63 := by
  have h1 := j.start_mono hq
  have h2 := h.size
  rw [bytes_length, filesize] at h2
  have := h.B
  omega

theorem aoff_lt {j : Job} (h : j.Sane) {w : Nat} (hw : w ≤ j.nwriters) : j.aoff w < 2 ^ 63 := by
  have h1 := j.aoff_mono hw
  rw [aoff_last h] at h1
  have h2 := (filesize_le h.B).2
  have h3 := h.size
  rw [bytes_length] at h3
  omega

/-! ## The scan -/

theorem seek_eq {A T : Nat} : ∀ {k t : Nat}, t ≤ T → T < t + k → (∀ u, t ≤ u → u < T → A > j.off u + j.d u) →
    ¬ A > j.off T + j.d T → j.seek A k t = .ok T := by
  intro k
  induction k with
  | zero => intro t h1 h2; omega
  | succ k ih =>
    intro t h1 h2 h3 h4
    rw [seek]
    rcases Nat.lt_or_ge t T with hlt | hge
    · rw [if_pos (h3 t (le_refl _) hlt)]
      exact ih (by omega) (by omega) (fun u hu => h3 u (by omega)) h4
    · have : t = T := by omega
      subst this; rw [if_neg h4]

theorem seek_spec {A : Nat} : ∀ {k t T : Nat}, j.seek A k t = .ok T → t ≤ T ∧ T < t + k ∧ A ≤ j.off T + j.d T := by
  intro k
  induction k with
  | zero => intro t T h; simp [seek] at h
  | succ k ih =>
    intro t T h
    rw [seek] at h
    split_ifs at h with hA
    · have := ih h; omega
    · cases h; omega

/-- What the scan guarantees of its result. -/
theorem scan_spec : ∀ {n w t : Nat} {L : List Nat}, j.scan n w t = .ok L → L.length = n ∧
    (∀ i, i < n → t ≤ L.getD i 0 ∧ L.getD i 0 < j.np ∧ j.aoff (w + i) ≤ j.off (L.getD i 0) + j.d (L.getD i 0)) ∧
    (∀ i, i + 1 < n → L.getD i 0 < L.getD (i + 1) 0) := by
  intro n
  induction n with
  | zero => intro w t L h; rw [scan] at h; cases h; simp
  | succ n ih =>
    intro w t L h
    rw [scan] at h
    cases hs : j.seek (j.aoff w) (j.np - t) t with
    | ub => rw [hs] at h; cases h
    | abort c => rw [hs] at h; cases h
    | ok u =>
      rw [hs] at h
      have h' : ((j.scan n (w + 1) (u + 1)).bind fun L => .ok (u :: L)) = .ok L := h
      cases hr : j.scan n (w + 1) (u + 1) with
      | ub => rw [hr] at h'; cases h'
      | abort c => rw [hr] at h'; cases h'
      | ok L' =>
        rw [hr] at h'
        cases h'
        obtain ⟨hl, h1, h2⟩ := ih hr
        obtain ⟨s1, s2, s3⟩ := j.seek_spec hs
        refine ⟨by simp [hl], ?_, ?_⟩
        · intro i hi
          rcases i with _ | i
          · simp only [List.getD_cons_zero, Nat.add_zero]; omega
          · have := h1 i (by omega)
            simp only [List.getD_cons_succ]
            rw [show w + (i + 1) = w + 1 + i by omega]
            omega
        · intro i hi
          rcases i with _ | i
          · have := h1 0 (by omega)
            simp only [List.getD_cons_zero, List.getD_cons_succ]; omega
          · simp only [List.getD_cons_succ]; exact h2 i (by omega)

theorem scan_eq (T : Nat → Nat) : ∀ {n w t : Nat}, (0 < n → t ≤ T w) →
    (∀ i, w ≤ i → i + 1 < w + n → T i < T (i + 1)) → (∀ i, w ≤ i → i < w + n → T i < j.np) →
    (∀ i, w ≤ i → i < w + n → j.aoff i ≤ j.off (T i) + j.d (T i)) →
    (∀ i u, w ≤ i → i < w + n → u < T i → j.aoff i > j.off u + j.d u) →
    j.scan n w t = .ok ((List.range' w n).map T) := by
  intro n
  induction n with
  | zero => intro w t _ _ _ _ _; simp [scan]
  | succ n ih =>
    intro w t ht hm hn hA hB
    rw [scan, j.seek_eq (T := T w) (ht (by omega)) (by have := hn w (le_refl _) (by omega); have := ht (by omega); omega)
      (fun u _ hu => hB w u (le_refl _) (by omega) hu) (by have := hA w (le_refl _) (by omega); omega)]
    change ((j.scan n (w + 1) (T w + 1)).bind fun L => .ok (T w :: L)) = _
    rw [ih (t := T w + 1) (fun hn' => hm w (le_refl _) (by omega)) (fun i h1 h2 => hm i (by omega) (by omega))
      (fun i h1 h2 => hn i (by omega) (by omega)) (fun i h1 h2 => hA i (by omega) (by omega))
      (fun i u h1 h2 => hB i u (by omega) (by omega))]
    rfl

/-! ## Facts about a list of writers -/

/-- `T` lists the writers: rank 0 first, increasing. -/
structure Writers (T : Nat → Nat) (L : List Nat) : Prop where
  len : L.length = j.nwriters
  get : ∀ w, w < j.nwriters → L.getD w 0 = T w
  zero : T 0 = 0
  mono : ∀ w, w + 1 < j.nwriters → T w < T (w + 1)
  lt : ∀ w, w < j.nwriters → T w < j.np

namespace Writers
variable {j} {T : Nat → Nat} {L : List Nat}

theorem strict (h : j.Writers T L) : ∀ {b a : Nat}, a < b → b < j.nwriters → T a < T b := by
  intro b
  induction b with
  | zero => intro a h1; omega
  | succ b ih =>
    intro a h1 h2
    have := h.mono b h2
    rcases Nat.lt_or_ge a b with hab | hab
    · have := ih hab (by omega); omega
    · have : a = b := by omega
      subst this; assumption

theorem wr_lt (h : j.Writers T L) {w : Nat} (hw : w < j.nwriters) : j.wr L w = T w := by rw [wr, if_pos hw, h.get w hw]

theorem mem (h : j.Writers T L) {r : Nat} : r ∈ L ↔ ∃ w, w < j.nwriters ∧ T w = r := by
  constructor
  · intro hr
    obtain ⟨w, hw, he⟩ := List.getElem_of_mem hr
    refine ⟨w, h.len ▸ hw, ?_⟩
    rw [← h.get w (h.len ▸ hw), ← he]; simp [hw]
  · rintro ⟨w, hw, rfl⟩
    have hl : w < L.length := h.len.symm ▸ hw
    rw [← h.get w hw, getD_get hl]; exact List.getElem_mem _

theorem idxOf (h : j.Writers T L) {w : Nat} (hw : w < j.nwriters) : L.idxOf (T w) = w := by
  have hl : w < L.length := h.len.symm ▸ hw
  have hm : L.idxOf (T w) < L.length := List.idxOf_lt_length_of_mem (h.mem.2 ⟨w, hw, rfl⟩)
  have hg : L[L.idxOf (T w)] = T w := List.getElem_idxOf hm
  have hg' := h.get (L.idxOf (T w)) (h.len ▸ hm)
  rw [getD_get hm, hg] at hg'
  rcases Nat.lt_trichotomy (L.idxOf (T w)) w with hlt | heq | hgt
  · have := h.strict hlt hw; omega
  · exact heq
  · have := h.strict hgt (h.len ▸ hm); omega

theorem prevFrom_eq (h : j.Writers T L) {r w : Nat} (hw : w < j.nwriters) (h1 : w = 0 ∨ T w < r)
    (h2 : w + 1 < j.nwriters → r ≤ T (w + 1)) (hr : r < j.np) : ∀ n, w ≤ n → n ≤ j.nwriters → j.prevFrom L r n = w := by
  intro n
  induction n with
  | zero => intro hn _; rw [prevFrom]; omega
  | succ n ih =>
    intro hn hn'
    rw [prevFrom]
    rcases Nat.lt_or_ge n w with hlt | hge
    · have he : w = n + 1 := by omega
      subst he
      rw [if_neg]
      rw [h.wr_lt hw]; omega
    · rw [if_pos]
      · exact ih hge (by omega)
      · rcases Nat.lt_or_ge (n + 1) j.nwriters with hlt | hge'
        · rw [h.wr_lt hlt]
          have := h2 (by omega)
          rcases Nat.lt_or_ge w n with hwn | hwn
          · have := h.strict (show w + 1 < n + 1 by omega) hlt; omega
          · have : w = n := by omega
            subst this; omega
        · rw [wr, if_neg (by omega)]; omega

/-- The writer that collects the start of rank `r`'s data. -/
theorem prev_eq (h : j.Writers T L) {r w : Nat} (hw : w < j.nwriters) (h1 : T w < r)
    (h2 : w + 1 < j.nwriters → r ≤ T (w + 1)) (hr : r < j.np) : j.prev L r = w := by
  rw [prev, if_neg (by omega)]
  exact h.prevFrom_eq hw (.inr h1) h2 hr _ (by omega) (le_refl _)

/-- Every rank but 0 has one. -/
theorem group (h : j.Writers T L) {r : Nat} (h0 : 0 < r) :
    ∀ n, n < j.nwriters → (n + 1 < j.nwriters → r ≤ T (n + 1)) → ∃ w, w < j.nwriters ∧ T w < r ∧ (w + 1 < j.nwriters → r ≤ T (w + 1)) := by
  intro n
  induction n with
  | zero => intro hn hr; exact ⟨0, hn, by rw [h.zero]; exact h0, hr⟩
  | succ n ih =>
    intro hn hr
    rcases Nat.lt_or_ge (T (n + 1)) r with hlt | hge
    · exact ⟨n + 1, hn, hlt, hr⟩
    · exact ih (by omega) fun _ => hge

theorem nextFrom_eq (h : j.Writers T L) {r w : Nat} (hw : w < j.nwriters) (h1 : r < T w) (h2 : ∀ v, v < w → T v ≤ r) :
    ∀ k v, v ≤ w → w ≤ v + k → j.nextFrom L r k v = w := by
  intro k
  induction k with
  | zero => intro v h3 h4; rw [nextFrom]; omega
  | succ k ih =>
    intro v h3 h4
    rw [nextFrom]
    rcases Nat.lt_or_ge v w with hlt | hge
    · rw [if_pos (by rw [h.wr_lt (by omega)]; exact h2 v hlt)]
      exact ih _ (by omega) (by omega)
    · have : v = w := by omega
      subst this
      rw [if_neg]; rw [h.wr_lt hw]; omega

theorem next_eq (h : j.Writers T L) {w : Nat} (hw : w < j.nwriters) : j.next L (T w) = w + 1 := by
  rw [next, h.wr_lt (by omega)]
  rcases Nat.lt_or_ge (w + 1) j.nwriters with hlt | hge
  · rw [if_neg (by have := h.strict (show w < j.nwriters - 1 by omega) (by omega); omega)]
    exact h.nextFrom_eq hlt (h.mono w hlt) (fun v hv => by
      rcases Nat.lt_or_ge v w with h1 | h1
      · exact (h.strict h1 hw).le
      · have : v = w := by omega
        subst this; exact le_refl _) _ _ (by omega) (by omega)
  · have : w = j.nwriters - 1 := by omega
    rw [if_pos (by rw [← this])]; omega

/-- The misalignment of rank `r` collected by writer `w`, without the wrapping. -/
theorem mis_eq (h : j.Writers T L) (hs : j.Sane) {r w : Nat} (hw : w < j.nwriters) (h1 : T w < r)
    (h2 : w + 1 < j.nwriters → r ≤ T (w + 1)) (hr : r < j.np) :
    j.mis L r = if j.aoff (w + 1) < j.start r then j.d r else min (j.d r) (j.aoff (w + 1) - j.start r) := by
  have hp := h.prev_eq hw h1 h2 hr
  have hA := aoff_lt hs (show w + 1 ≤ j.nwriters by omega)
  have hS := start_lt hs (show r ≤ j.np by omega)
  have hd := (d_pos hs hr).2
  rw [mis, if_neg (by omega), hp]
  dsimp only
  rw [← aoff_succ, off, if_neg (show ¬ r = 0 by omega)]
  generalize j.aoff (w + 1) = A at *
  generalize j.start r = S at *
  generalize j.d r = D at *
  rcases Nat.lt_or_ge A S with hlt | hge
  · have e : (A + 2 ^ 64 - S) % 2 ^ 64 = A + 2 ^ 64 - S := Nat.mod_eq_of_lt (by omega)
    rw [e, if_pos hlt, if_pos (by omega)]
  · have e : (A + 2 ^ 64 - S) % 2 ^ 64 = A - S := by
      rw [show A + 2 ^ 64 - S = A - S + 2 ^ 64 by omega, Nat.add_mod_right]
      exact Nat.mod_eq_of_lt (by omega)
    rw [e, if_neg (show ¬ A < S by omega)]
    rcases Nat.lt_or_ge D (A - S) with h3 | h3
    · rw [if_pos h3, Nat.min_eq_left h3.le]
    · rw [if_neg (by omega), Nat.min_eq_right h3]

end Writers

/-! ## Slices of the file -/

/-- Bytes `a` up to `b`. -/
def slice (a b : Nat) : List Byte := (j.bytes.take b).drop a

theorem slice_length {a b : Nat} (hb : b ≤ j.filesize) : (j.slice a b).length = b - a := by
  rw [slice, List.length_drop, List.length_take, bytes_length, Nat.min_eq_left hb]

theorem slice_empty {a b : Nat} (h : b ≤ a) : j.slice a b = [] := by
  rw [slice, List.drop_eq_nil_iff, List.length_take]; omega

theorem slice_append {a b c : Nat} (h1 : a ≤ b) (h2 : b ≤ c) : j.slice a b ++ j.slice b c = j.slice a c := by
  simp only [slice]
  generalize j.bytes = l
  have h3 : l.take b = (l.take c).take b := by rw [List.take_take, Nat.min_eq_left h2]
  rw [h3]
  generalize l.take c = m
  have h4 : (m.take b).drop a = (m.drop a).take (b - a) := by rw [List.drop_take]
  have h5 : m.drop b = (m.drop a).drop (b - a) := by rw [List.drop_drop]; congr 1; omega
  rw [h4, h5, List.take_append_drop]

theorem slice_data {q : Nat} (hq : q < j.np) : j.slice (j.start q) (j.start (q + 1)) = j.buf q := by
  have hq' : q < j.data.length := hq
  have hb : j.buf q = j.data[q] := by simp [buf, hq']
  rw [slice, ← j.first_eq (show q ≤ j.np by omega), ← j.first_eq (show q + 1 ≤ j.np by omega)]
  have e : j.bytes = (j.head ++ (j.data.take (q + 1)).flatten) ++ (j.data.drop (q + 1)).flatten := by
    rw [List.append_assoc, ← List.flatten_append, List.take_append_drop, bytes]
  rw [e]
  rw [show j.first (q + 1) = (j.head ++ (j.data.take (q + 1)).flatten).length from rfl, List.take_left]
  rw [List.take_succ_eq_append_getElem hq', List.flatten_append, ← List.append_assoc]
  rw [show j.first q = (j.head ++ (j.data.take q).flatten).length from rfl, List.drop_left, hb]
  simp

theorem slice_head : j.slice 0 (j.start 0) = j.head := by
  rw [slice, ← j.first_eq (Nat.zero_le _), first, bytes]; simp

theorem slice_take {q m : Nat} (hq : q < j.np) (hm : m ≤ j.d q) : j.slice (j.start q) (j.start q + m) = (j.buf q).take m := by
  rw [← j.slice_data hq, slice, slice, List.drop_take, List.drop_take, List.take_take, start_succ]
  congr 1; omega

theorem slice_drop {q m : Nat} (hq : q < j.np) : j.slice (j.start q + m) (j.start (q + 1)) = (j.buf q).drop m := by
  rw [← j.slice_data hq, slice, slice, List.drop_drop]

/-! ## A well spread run -/

/-- The cuts fall inside the data of the writers `T`, in the model's numbers. -/
structure Good (T : Nat → Nat) (L : List Nat) : Prop where
  writers : j.Writers T L
  sane : j.Sane
  after : ∀ w, 1 ≤ w → w < j.nwriters → j.start (T w) < j.aoff w
  before : ∀ w, 1 ≤ w → w < j.nwriters → j.aoff w < j.start (T w + 1)

namespace Good
variable {j} {T : Nat → Nat} {L : List Nat}

/-- Where writer `w` stops. -/
theorem reach (h : j.Good T L) {r w : Nat} (hw : w < j.nwriters)
    (h2 : w + 1 < j.nwriters → r ≤ T (w + 1)) (hr : r < j.np) : j.start r < j.aoff (w + 1) := by
  rcases Nat.lt_or_ge (w + 1) j.nwriters with hlt | hge
  · have := h.after (w + 1) (by omega) hlt
    have := j.start_mono (h2 hlt)
    omega
  · have e : w + 1 = j.nwriters := by omega
    rw [e, aoff_last h.sane]
    have := (filesize_le h.sane.B).1
    have h3 := j.start_mono (show r + 1 ≤ j.np by omega)
    rw [start_succ] at h3
    have := (d_pos h.sane hr).1
    have e2 : j.filesize = j.start j.np := rfl
    omega

theorem mis_eq (h : j.Good T L) {r w : Nat} (hw : w < j.nwriters) (h1 : T w < r)
    (h2 : w + 1 < j.nwriters → r ≤ T (w + 1)) (hr : r < j.np) :
    j.mis L r = min (j.d r) (j.aoff (w + 1) - j.start r) := by
  rw [h.writers.mis_eq h.sane hw h1 h2 hr, if_neg]
  have := h.reach hw h2 hr
  omega

theorem mis_pos (h : j.Good T L) {r w : Nat} (hw : w < j.nwriters) (h1 : T w < r)
    (h2 : w + 1 < j.nwriters → r ≤ T (w + 1)) (hr : r < j.np) : 0 < j.mis L r := by
  rw [h.mis_eq hw h1 h2 hr]
  have := h.reach hw h2 hr
  have := (d_pos h.sane hr).1
  omega

/-- A rank that is no writer has all its data collected. -/
theorem mis_silent (h : j.Good T L) {r w : Nat} (hw : w < j.nwriters) (h1 : T w < r)
    (h2 : w + 1 < j.nwriters → r < T (w + 1)) (hr : r < j.np) : j.mis L r = j.d r := by
  rw [h.mis_eq hw h1 (fun h' => (h2 h').le) hr, Nat.min_eq_left]
  have e := j.start_succ r
  rcases Nat.lt_or_ge (w + 1) j.nwriters with hlt | hge
  · have := h.after (w + 1) (by omega) hlt
    have := j.start_mono (show r + 1 ≤ T (w + 1) from h2 hlt)
    omega
  · have e' : w + 1 = j.nwriters := by omega
    rw [e', aoff_last h.sane]
    have h3 := (filesize_le h.sane.B).1
    have := j.start_mono (show r + 1 ≤ j.np by omega)
    rw [filesize] at h3
    omega

/-- A writer keeps the part behind the cut. -/
theorem mis_writer (h : j.Good T L) {w : Nat} (hw : w + 1 < j.nwriters) :
    j.mis L (T (w + 1)) = j.aoff (w + 1) - j.start (T (w + 1)) := by
  rw [h.mis_eq (w := w) (by omega) (h.writers.mono w hw) (fun _ => le_refl _) (h.writers.lt _ hw), Nat.min_eq_right]
  have := h.before (w + 1) (by omega) hw
  rw [start_succ] at this
  omega

theorem send_eq (h : j.Good T L) {r w : Nat} (hw : w < j.nwriters) (h1 : T w < r)
    (h2 : w + 1 < j.nwriters → r ≤ T (w + 1)) (hr : r < j.np) :
    j.send L r = some (T w, (j.buf r).take (j.mis L r)) := by
  have hp := h.writers.prev_eq hw h1 h2 hr
  have hmp := h.mis_pos hw h1 h2 hr
  rw [send, hp, h.writers.wr_lt hw]
  split_ifs with c1 c2
  · rw [List.take_of_length_le c1]
  · rfl
  · exfalso
    refine c2 ⟨?_, by omega, hmp⟩
    by_cases hx : w + 1 < j.nwriters ∧ r = T (w + 1)
    · exact h.writers.mem.2 ⟨w + 1, hx.1, hx.2.symm⟩
    · have := h.mis_silent hw h1 (fun h' => by have := h2 h'; omega) hr
      omega

theorem receive_eq (h : j.Good T L) {r w : Nat} (hw : w < j.nwriters) (h1 : T w < r)
    (h2 : w + 1 < j.nwriters → r ≤ T (w + 1)) (hr : r < j.np) :
    j.receive L (T w) r = .ok (j.slice (j.start r) (min (j.start (r + 1)) (j.aoff (w + 1)))) := by
  have hm := h.mis_eq hw h1 h2 hr
  have hreach := h.reach hw h2 hr
  have hle : j.mis L r ≤ j.d r := by rw [hm]; exact Nat.min_le_left _ _
  have hmp := h.mis_pos hw h1 h2 hr
  rw [receive, if_neg (by omega), h.send_eq hw h1 h2 hr]
  dsimp only
  rw [if_pos ⟨rfl, by rw [List.length_take]; exact Nat.min_eq_left hle⟩, ← j.slice_take hr hle]
  congr 2
  rw [hm, start_succ]; omega

theorem receives_eq (h : j.Good T L) {w : Nat} (hw : w < j.nwriters) : ∀ n q, T w < q → q + n ≤ j.np →
    (w + 1 < j.nwriters → q + n ≤ T (w + 1) + 1) →
    j.receives L (T w) n q = .ok (j.slice (j.start q) (min (j.start (q + n)) (j.aoff (w + 1)))) := by
  intro n
  induction n with
  | zero => intro q _ _ _; rw [receives, Nat.add_zero, slice_empty _ (Nat.min_le_left _ _)]
  | succ n ih =>
    intro q h1 h2 h3
    rw [receives, if_pos (by omega), h.receive_eq hw h1 (fun h' => by have := h3 h'; omega) (by omega),
      ih (q + 1) (by omega) (by omega) (fun h' => by have := h3 h'; omega)]
    change Outcome.ok _ = _
    congr 1
    rw [show q + 1 + n = q + (n + 1) by omega]
    have hm1 := j.start_mono (show q ≤ q + 1 by omega)
    have hm2 := j.start_mono (show q + 1 ≤ q + (n + 1) by omega)
    have hreach := h.reach (r := q) hw (fun h' => by have := h3 h'; omega) (by omega)
    rcases Nat.lt_or_ge (j.aoff (w + 1)) (j.start (q + 1)) with hlt | hge
    · rw [Nat.min_eq_right hlt.le, Nat.min_eq_right (by omega), j.slice_empty hlt.le, List.append_nil]
    · rw [Nat.min_eq_left hge, j.slice_append hm1 (by omega)]

/-- The end of part `w`. -/
theorem part_end (h : j.Good T L) {w : Nat} (hw : w < j.nwriters) :
    min (j.start (j.wr L (w + 1) + 1)) (j.aoff (w + 1)) = min j.filesize (j.aoff (w + 1)) ∧ T w ≤ j.wr L (w + 1) ∧
      j.wr L (w + 1) < j.np ∧ T w + 1 ≤ j.np ∧ j.start (T w + 1) ≤ min j.filesize (j.aoff (w + 1)) := by
  have hlt := h.writers.lt w hw
  rcases Nat.lt_or_ge (w + 1) j.nwriters with hn | hn
  · have e := h.writers.wr_lt hn
    have hb := h.before (w + 1) (by omega) hn
    have hl := h.writers.lt _ hn
    have hm := j.start_mono (show T (w + 1) + 1 ≤ j.np from hl)
    have hm1 := h.writers.mono w hn
    have ha := h.after (w + 1) (by omega) hn
    have hm2 := j.start_mono (show T w + 1 ≤ T (w + 1) from hm1)
    rw [e, filesize]
    refine ⟨by omega, by omega, by omega, by omega, by omega⟩
  · have e : w + 1 = j.nwriters := by omega
    have e' : j.wr L (w + 1) = j.np - 1 := by rw [wr, if_neg (by omega)]
    have h3 := (filesize_le h.sane.B).1
    have hm := j.start_mono (show T w + 1 ≤ j.np from hlt)
    rw [e', e, aoff_last h.sane, show j.np - 1 + 1 = j.np by omega]
    have e2 : j.filesize = j.start j.np := rfl
    refine ⟨by rw [e2], by omega, by omega, by omega, by omega⟩

theorem ws_eq (h : j.Good T L) {w : Nat} (hw : w < j.nwriters) :
    j.ws L (T w) = min j.filesize (j.aoff (w + 1)) - j.aoff w := by
  have hp := h.part_end hw
  rw [ws, h.writers.next_eq hw, h.writers.wr_lt (by omega)]
  rcases Nat.lt_or_ge (w + 1) j.nwriters with hn | hn
  · have := h.writers.strict (show w < j.nwriters - 1 by omega) (by omega)
    have hb := h.before (w + 1) (by omega) hn
    have hl := h.writers.lt _ hn
    have hm := j.start_mono (show T (w + 1) + 1 ≤ j.np from hl)
    rw [if_neg (by omega), Nat.min_eq_right (by rw [filesize]; omega), aoff]
    split_ifs <;> omega
  · have e : w = j.nwriters - 1 := by omega
    have h3 := (filesize_le h.sane.B).1
    rw [← e, if_pos (le_refl _), show w + 1 = j.nwriters by omega, aoff_last h.sane, Nat.min_eq_left h3]

/-- What writer `w` does. -/
theorem rank_writer (h : j.Good T L) {w : Nat} (hw : w < j.nwriters) :
    j.rank L (T w) = if 2 ^ 31 ≤ min j.filesize (j.aoff (w + 1)) - j.aoff w then .ub
      else .ok (writesAt (j.aoff w) (j.slice (j.aoff w) (min j.filesize (j.aoff (w + 1))))) := by
  obtain ⟨p1, p2, p3, p4, p5⟩ := h.part_end hw
  have hlt := h.writers.lt w hw
  have hsend : ¬ (T w > 0 ∧ j.send L (T w) = none) := by
    rintro ⟨h0, hn⟩
    obtain ⟨v, v1, v2, v3⟩ := h.writers.group h0 (j.nwriters - 1) (by omega) (by omega)
    rw [h.send_eq v1 v2 v3 hlt] at hn
    cases hn
  rw [rank, if_neg hsend, if_pos (h.writers.mem.2 ⟨w, hw, rfl⟩)]
  dsimp only
  rw [h.writers.next_eq hw, h.receives_eq hw _ _ (by omega) (by omega)
    (fun hn => by rw [h.writers.wr_lt hn] at p2 ⊢; omega)]
  rw [show T w + 1 + (j.wr L (w + 1) - T w) = j.wr L (w + 1) + 1 by omega, p1, h.writers.idxOf hw]
  have hown : (if T w = 0 then j.head else []) ++ (j.buf (T w)).drop (j.mis L (T w)) = j.slice (j.aoff w) (j.start (T w + 1)) := by
    rcases w with _ | w
    · rw [h.writers.zero, if_pos rfl, mis, if_pos rfl, aoff, ← j.slice_head, ← j.slice_drop (by omega)]
      exact j.slice_append (Nat.zero_le _) (j.start_mono (Nat.zero_le _))
    · have := h.writers.mono w hw
      have ha := h.after (w + 1) (by omega) hw
      rw [if_neg (by omega), h.mis_writer hw, ← j.slice_drop hlt, List.nil_append,
        show j.start (T (w + 1)) + (j.aoff (w + 1) - j.start (T (w + 1))) = j.aoff (w + 1) by omega]
  have hA : j.aoff w ≤ j.start (T w + 1) := by
    rcases w with _ | w
    · rw [aoff]; omega
    · exact (h.before (w + 1) (by omega) hw).le
  rw [hown]
  rw [bind_ok, j.slice_append hA p5, j.slice_length (Nat.min_le_left _ _), h.ws_eq hw, if_neg (by simp)]

theorem rank_silent (h : j.Good T L) {r w : Nat} (hw : w < j.nwriters) (h1 : T w < r)
    (h2 : w + 1 < j.nwriters → r < T (w + 1)) (hr : r < j.np) : j.rank L r = .ok [] := by
  rw [rank, if_neg, if_neg]
  · intro hm
    obtain ⟨v, v1, v2⟩ := h.writers.mem.1 hm
    rcases Nat.lt_trichotomy v w with hlt | heq | hgt
    · have := h.writers.strict hlt hw; omega
    · subst heq; omega
    · have hn : w + 1 < j.nwriters := by omega
      have := h2 hn
      rcases Nat.lt_or_ge (w + 1) v with h3 | h3
      · have := h.writers.strict h3 v1; omega
      · have : v = w + 1 := by omega
        subst this; omega
  · rintro ⟨_, hn⟩
    rw [h.send_eq hw h1 (fun h' => (h2 h').le) hr] at hn
    cases hn

/-- The ranks from `r` on write the file from part `w` on. -/
theorem allRanks_eq (h : j.Good T L) (hsmall : ∀ w, w < j.nwriters → min j.filesize (j.aoff (w + 1)) - j.aoff w < 2 ^ 31) :
    ∀ n r w, r + n = j.np → w ≤ j.nwriters → (∀ v, v < w → T v < r) → (∀ v, w ≤ v → v < j.nwriters → r ≤ T v) →
    j.allRanks L n r = .ok (writesAt (min j.filesize (j.aoff w)) (j.slice (min j.filesize (j.aoff w)) j.filesize)) := by
  intro n
  induction n with
  | zero =>
    intro r w hr hw h1 h2
    have e : w = j.nwriters := by
      rcases Nat.lt_or_ge w j.nwriters with hlt | hge
      · have := h2 w (le_refl _) hlt
        have := h.writers.lt w hlt
        omega
      · omega
    have h3 := (filesize_le h.sane.B).1
    rw [allRanks, e, aoff_last h.sane, Nat.min_eq_left h3, j.slice_empty (le_refl _)]
    rfl
  | succ n ih =>
    intro r w hr hw h1 h2
    rw [allRanks]
    have hmn := Nat.min_le_left j.filesize (j.aoff (w + 1))
    by_cases hx : w < j.nwriters ∧ r = T w
    · obtain ⟨hx1, hx2⟩ := hx
      rw [hx2, h.rank_writer hx1, if_neg (by have := hsmall w hx1; omega)]
      rw [← hx2, ih (r + 1) (w + 1) (by omega) (by omega)
        (fun v hv => by
          rcases Nat.lt_or_ge v w with h3 | h3
          · have := h1 v h3; omega
          · have : v = w := by omega
            subst this; omega)
        (fun v hv hv' => by have := h.writers.strict (show w < v by omega) hv'; omega)]
      rw [bind_ok, bind_ok]
      congr 1
      obtain ⟨p1, p2, p3, p4, p5⟩ := h.part_end hx1
      have hA : j.aoff w ≤ j.start (T w + 1) := by
        rcases w with _ | w
        · rw [aoff]; omega
        · exact (h.before (w + 1) (by omega) hx1).le
      have e1 : min j.filesize (j.aoff w) = j.aoff w := by omega
      rw [e1, ← j.slice_append (show j.aoff w ≤ min j.filesize (j.aoff (w + 1)) by omega) (Nat.min_le_left _ _),
        writesAt_append, j.slice_length (Nat.min_le_left _ _),
        show j.aoff w + (min j.filesize (j.aoff (w + 1)) - j.aoff w) = min j.filesize (j.aoff (w + 1)) by omega]
    · rcases w with _ | w
      · exfalso
        have hn := nwriters_pos h.sane
        have := h2 0 (le_refl _) hn
        rw [h.writers.zero] at this
        exact hx ⟨hn, by rw [h.writers.zero]; omega⟩
      · rw [h.rank_silent (w := w) (by omega) (h1 w (by omega))
          (fun h' => by have := h2 (w + 1) (le_refl _) h'
                        have : ¬ r = T (w + 1) := fun e => hx ⟨h', e⟩
                        omega) (by omega),
          ih (r + 1) (w + 1) (by omega) hw (fun v hv => by have := h1 v hv; omega)
            (fun v hv hv' => by
              have h3 := h2 (w + 1) (le_refl _) (by omega)
              have : ¬ r = T (w + 1) := fun e => hx ⟨by omega, e⟩
              rcases Nat.lt_or_ge (w + 1) v with h4 | h4
              · have := h.writers.strict h4 hv'; omega
              · have : v = w + 1 := by omega
                subst this; omega)]
        rw [bind_ok, bind_ok, List.nil_append]

end Good

/-! ## Main results -/

theorem Spread.good {j : Job} {T : Nat → Nat} (hs : j.Sane) (hT : j.Spread T) :
    ∃ T' L, j.scan j.nwriters 0 0 = .ok L ∧ j.Good T' L := by
  have hn := nwriters_pos hs
  have hnp := nwriters_eq hs.B
  have hle := j.nwriters_le
  have hlt : ∀ w, w < j.nwriters → (if w = 0 then 0 else T w) < j.np := by
    intro w hw
    split_ifs with h0
    · omega
    · exact hT.lt w (by omega) (by omega)
  have hmono : ∀ w, w + 1 < j.nwriters → (if w = 0 then 0 else T w) < (if w + 1 = 0 then 0 else T (w + 1)) := by
    intro w hw
    rw [if_neg (by omega : ¬ w + 1 = 0)]
    split_ifs with h0
    · have := hT.pos (w + 1) (by omega) (by omega); omega
    · exact hT.mono w (by omega) (by omega)
  have hafter : ∀ w, 1 ≤ w → w < j.nwriters → j.start (T w) < j.aoff w := by
    intro w h1 h2
    have h3 := hT.after w h1 (by omega)
    rwa [j.first_eq (hT.lt w h1 (by omega)).le, ← aoff_eq hs.B] at h3
  have hbefore : ∀ w, 1 ≤ w → w < j.nwriters → j.aoff w < j.start (T w + 1) := by
    intro w h1 h2
    have h3 := hT.before w h1 (by omega)
    rwa [j.first_eq (show T w + 1 ≤ j.np from hT.lt w h1 (by omega)), ← aoff_eq hs.B] at h3
  have hoff : ∀ u, 0 < u → j.off u + j.d u = j.start (u + 1) := by
    intro u hu; rw [off, if_neg (by omega), start_succ]
  have hle0 : ∀ u, j.off u + j.d u ≤ j.start (u + 1) := by
    intro u
    rcases Nat.eq_zero_or_pos u with rfl | hu
    · rw [off, if_pos rfl, start_succ]; omega
    · exact (hoff u hu).le
  refine ⟨fun w => if w = 0 then 0 else T w, _, j.scan_eq (fun w => if w = 0 then 0 else T w) (fun _ => Nat.zero_le _)
    (fun i _ hi => hmono i (by omega)) (fun i _ hi => hlt i (by omega)) ?_ ?_, ?_⟩
  · intro i _ hi
    beta_reduce
    split_ifs with h0
    · subst h0; rw [aoff]; omega
    · rw [hoff _ (hT.pos i (by omega) (by omega))]
      exact (hbefore i (by omega) (by omega)).le
  · intro i u _ hi hu
    beta_reduce at hu
    split_ifs at hu with h0
    · omega
    have h1 := hafter i (by omega) (by omega)
    have h2 := hle0 u
    have h3 := j.start_mono (show u + 1 ≤ T i from hu)
    omega
  · refine ⟨⟨by simp, ?_, by simp, hmono, hlt⟩, hs, ?_, ?_⟩
    · intro w hw
      rw [getD_get (by simpa using hw)]; simp
    · intro w h1 h2; beta_reduce; rw [if_neg (by omega)]; exact hafter w h1 h2
    · intro w h1 h2; beta_reduce; rw [if_neg (by omega)]; exact hbefore w h1 h2

theorem partsFit_iff {j : Job} (hs : j.Sane) :
    j.PartsFit ↔ ∀ w, w < j.nwriters → min j.filesize (j.aoff (w + 1)) - j.aoff w < 2 ^ 31 := by
  simp only [PartsFit, ← nwriters_eq hs.B, bytes_length, aoff_eq hs.B]

theorem sizes_ok {j : Job} (hs : j.Sane) : ¬ (List.range j.np).any (fun q => decide (q > 0 ∧ 2 ^ 31 - 1 ≤ j.d q)) = true := by
  rw [List.any_eq_true]
  rintro ⟨q, hq, h⟩
  have h1 := (d_pos hs (List.mem_range.1 hq)).2
  have h2 := (of_decide_eq_true h).2
  omega

/-- If the cuts are spread over the ranks and the parts are small enough, the run writes the file. -/
theorem Spread.writes_eq {j : Job} {T : Nat → Nat} (hs : j.Sane) (hT : j.Spread T) (hp : j.PartsFit) :
    j.writes = .ok (writesAt 0 j.bytes) := by
  obtain ⟨T', L, hL, hg⟩ := hT.good hs
  rw [writes, if_neg (sizes_ok hs), hL, bind_ok, if_neg]
  · rw [hg.allRanks_eq ((partsFit_iff hs).1 hp) j.np 0 0 (by omega) (by omega) (fun v hv => by omega) (fun v _ _ => by omega)]
    rw [aoff, Nat.min_eq_right (Nat.zero_le _), slice, ← bytes_length, List.take_length, List.drop_zero]
  · rw [List.any_eq_true]
    rintro ⟨r, hr, h⟩
    have h := of_decide_eq_true h
    obtain ⟨w, hw, rfl⟩ := hg.writers.mem.1 hr
    have hd := (d_pos hs (hg.writers.lt w hw)).1
    rcases w with _ | w
    · rw [hg.writers.zero] at h hd
      rw [mis, if_pos rfl] at h; omega
    · rw [hg.mis_writer hw] at h
      have := hg.before (w + 1) (by omega) hw
      rw [start_succ] at this
      omega

theorem allRanks_ok {L : List Nat} : ∀ {n r : Nat} {W : List (Nat × Byte)}, j.allRanks L n r = .ok W →
    ∀ q, r ≤ q → q < r + n → ∃ a, j.rank L q = .ok a := by
  intro n
  induction n with
  | zero => intro r W _ q h1 h2; omega
  | succ n ih =>
    intro r W h q h1 h2
    rw [allRanks] at h
    cases hr : j.rank L r with
    | ub => rw [hr] at h; cases h
    | abort c => rw [hr] at h; cases h
    | ok a =>
      rw [hr, bind_ok] at h
      cases hn : j.allRanks L n (r + 1) with
      | ub => rw [hn] at h; cases h
      | abort c => rw [hn] at h; cases h
      | ok b =>
        rcases Nat.lt_or_ge r q with h3 | h3
        · exact ih hn q h3 (by omega)
        · have : q = r := by omega
          subst this; exact ⟨a, hr⟩

/-- A run that finishes had its cuts spread over the ranks, and its parts small enough. -/
theorem spread_of_writes {j : Job} {W : List (Nat × Byte)} (hs : j.Sane) (h : j.writes = .ok W) :
    (∃ T, j.Spread T) ∧ j.PartsFit := by
  have hn := nwriters_pos hs
  have hnp := nwriters_eq hs.B
  have hle := j.nwriters_le
  rw [writes, if_neg (sizes_ok hs)] at h
  cases hL : j.scan j.nwriters 0 0 with
  | ub => rw [hL] at h; cases h
  | abort c => rw [hL] at h; cases h
  | ok L =>
    rw [hL, bind_ok] at h
    split_ifs at h with hany
    obtain ⟨s1, s2, s3⟩ := j.scan_spec hL
    have h0 : L.getD 0 0 = 0 := by
      obtain ⟨k, hk⟩ : ∃ k, j.nwriters = k + 1 := ⟨j.nwriters - 1, by omega⟩
      obtain ⟨p, hp⟩ : ∃ p, j.np = p + 1 := ⟨j.np - 1, by omega⟩
      rw [hk, scan, hp, Nat.sub_zero, seek, aoff, if_neg (by omega), bind_ok] at hL
      cases hr : j.scan k (0 + 1) (0 + 1) with
      | ub => rw [hr] at hL; cases hL
      | abort c => rw [hr] at hL; cases hL
      | ok L' => rw [hr] at hL; cases hL; rfl
    have hw : j.Writers (fun w => L.getD w 0) L :=
      ⟨s1, fun _ _ => rfl, h0, fun w hw => s3 w hw, fun w hw => (s2 w hw).2.1⟩
    have key : ∀ w, w + 1 < j.nwriters →
        j.start (L.getD (w + 1) 0) < j.aoff (w + 1) ∧ j.aoff (w + 1) < j.start (L.getD (w + 1) 0 + 1) := by
      intro w hw1
      have hlt := hw.lt (w + 1) hw1
      have hmono := hw.mono w hw1
      have hm := hw.mis_eq hs (w := w) (by omega) hmono (fun _ => le_refl _) hlt
      have hmem : L.getD (w + 1) 0 ∈ L := hw.mem.2 ⟨w + 1, hw1, rfl⟩
      beta_reduce at hlt hmono hm
      generalize L.getD (w + 1) 0 = t at *
      have hd := (d_pos hs hlt).1
      have hmis : j.mis L t < j.d t := by
        by_contra hc
        exact hany (List.any_eq_true.2 ⟨t, hmem, decide_eq_true hc⟩)
      have hsend : 0 < j.mis L t := by
        by_contra hc
        obtain ⟨a, ha⟩ := j.allRanks_ok h t (by omega) (by omega)
        have hx : j.send L t = none := by
          rw [send, if_neg (by omega), if_neg]
          rintro ⟨_, _, h3⟩; exact hc h3
        rw [rank, if_pos ⟨by omega, hx⟩] at ha
        cases ha
      rw [hm] at hmis hsend
      rw [start_succ]
      split_ifs at hmis hsend <;> omega
    have hT : j.Spread fun w => L.getD w 0 := by
      constructor
      · intro w h1 h2; have := hw.strict (show 0 < w by omega) (by omega); beta_reduce at this; omega
      · intro w h1 h2; exact hw.lt w (by omega)
      · intro w h1 h2
        obtain ⟨v, rfl⟩ : ∃ v, w = v + 1 := ⟨w - 1, by omega⟩
        rw [j.first_eq (hw.lt (v + 1) (by omega)).le, ← aoff_eq hs.B]; exact (key v (by omega)).1
      · intro w h1 h2
        obtain ⟨v, rfl⟩ : ∃ v, w = v + 1 := ⟨w - 1, by omega⟩
        rw [j.first_eq (show L.getD (v + 1) 0 + 1 ≤ j.np from hw.lt (v + 1) (by omega)), ← aoff_eq hs.B]; exact (key v (by omega)).2
      · intro w h1 h2; exact hw.mono w (by omega)
    refine ⟨⟨_, hT⟩, (partsFit_iff hs).2 ?_⟩
    have hg : j.Good (fun w => L.getD w 0) L := ⟨hw, hs,
      fun w h1 h2 => by
        obtain ⟨v, rfl⟩ : ∃ v, w = v + 1 := ⟨w - 1, by omega⟩
        exact (key v h2).1,
      fun w h1 h2 => by
        obtain ⟨v, rfl⟩ : ∃ v, w = v + 1 := ⟨w - 1, by omega⟩
        exact (key v h2).2⟩
    intro w hw1
    by_contra hc
    obtain ⟨a, ha⟩ := j.allRanks_ok h (L.getD w 0) (Nat.zero_le _) (by have := hw.lt w hw1; beta_reduce at this; omega)
    rw [hg.rank_writer hw1, if_pos (by omega)] at ha
    cases ha

/-- **C19.** The aggregating writer finishes exactly when each interior cut falls strictly inside the data of a rank other
than 0, different cuts in different ranks, and every part fits an `int`. -/
theorem aggregated_iff {j : Job} (hs : j.Sane) : (∃ W, j.writes = .ok W) ↔ (∃ T, j.Spread T) ∧ j.PartsFit :=
  ⟨fun ⟨_, h⟩ => spread_of_writes hs h, fun ⟨⟨_, hT⟩, hp⟩ => ⟨_, hT.writes_eq hs hp⟩⟩

/-- **C19.** If it finishes, the file is the header followed by the blocks in rank order, in whatever order the
single-byte writes take effect. -/
theorem aggregated_output {j : Job} {W W' : List (Nat × Byte)} (hs : j.Sane) (h : j.writes = .ok W) (hp : W'.Perm W) (i : Nat) :
    written W' i = (j.head ++ j.data.flatten)[i]? := by
  obtain ⟨⟨T, hT⟩, hf⟩ := spread_of_writes hs h
  rw [hT.writes_eq hs hf] at h
  cases h
  exact written_perm hp i

/-- **C19.** The same file as the standard path writes. -/
theorem aggregated_eq_standard {B : Nat} {text : List Byte} {data : List (List Byte)} {W W' V V' : List (Nat × Byte)}
    (hs : Job.Sane ⟨B, text ++ intBytes data.length, data⟩) (hW : Job.writes ⟨B, text ++ intBytes data.length, data⟩ = .ok W)
    (hV : standardWrites text data = .ok V) (hW' : W'.Perm W) (hV' : V'.Perm V) : written W' = written V' := by
  funext i
  rw [aggregated_output hs hW hW' i]
  obtain ⟨V₀, h1, h2⟩ := standard_output (text := text) (blocks := data) fun b hb => (hs.data b hb).2
  rw [hV] at h1
  cases h1
  exact (h2 V' hV' i).symm

/-- **C19.** One part only: a file no longer than a block is always written. -/
theorem aggregated_single {j : Job} (hs : j.Sane) (h : j.bytes.length ≤ j.B) (h31 : j.bytes.length < 2 ^ 31) :
    j.writes = .ok (writesAt 0 j.bytes) := by
  have hb : j.specBlocks = 1 := by
    have := hs.head
    have hl : 0 < j.bytes.length := by rw [bytes, List.length_append]; omega
    rw [specBlocks, Nat.div_eq_iff hs.B]; omega
  have hp : j.parts ≤ 1 := by rw [parts, hb]; exact Nat.min_le_right _ _
  exact Spread.writes_eq (T := id) hs ⟨fun w _ _ => by omega, fun w _ _ => by omega, fun w _ _ => by omega, fun w _ _ => by omega,
    fun w _ _ => by omega⟩ fun w _ => by omega

/-- **C19.** A cut at the end of a rank's data makes the run fail. -/
theorem boundary_fails {j : Job} (hs : j.Sane) {w q : Nat} (h1 : 1 ≤ w) (h2 : w < j.parts) (hq : q ≤ j.data.length)
    (hc : j.cut w = j.first q) (W : List (Nat × Byte)) : j.writes ≠ .ok W := by
  intro h
  obtain ⟨⟨T, hT⟩, _⟩ := spread_of_writes hs h
  have hl := hT.lt w h1 h2
  have ha := hT.after w h1 h2
  have hb := hT.before w h1 h2
  have hq' : q ≤ j.np := hq
  rw [hc, j.first_eq hq', j.first_eq (show T w ≤ j.np from hl.le)] at ha
  rw [hc, j.first_eq hq', j.first_eq (show T w + 1 ≤ j.np from hl)] at hb
  rcases Nat.lt_or_ge (T w) q with h3 | h3
  · have := j.start_mono (show T w + 1 ≤ q from h3); omega
  · have := j.start_mono h3; omega

/-- **C19.** A cut within the header or the data of rank 0 makes the run fail. -/
theorem rank0_cut_fails {j : Job} (hs : j.Sane) (h2 : 1 < j.parts) (hc : j.cut 1 ≤ j.first 1) (W : List (Nat × Byte)) :
    j.writes ≠ .ok W := by
  intro h
  obtain ⟨⟨T, hT⟩, _⟩ := spread_of_writes hs h
  have hl := hT.lt 1 (by omega) h2
  have ha := hT.after 1 (by omega) h2
  have hp := hT.pos 1 (by omega) h2
  rw [j.first_eq (show T 1 ≤ j.np from hl.le)] at ha
  rw [j.first_eq (show 1 ≤ j.np from by have : T 1 < j.np := hl; omega)] at hc
  have := j.start_mono hp
  omega

/-- **C19.** Two cuts in the data of one rank make the run fail. -/
theorem wide_rank_fails {j : Job} (hs : j.Sane) {w q : Nat} (h1 : 1 ≤ w) (h2 : w + 1 < j.parts) (hq : q < j.data.length)
    (ha : j.first q ≤ j.cut w) (hb : j.cut (w + 1) ≤ j.first (q + 1)) (W : List (Nat × Byte)) : j.writes ≠ .ok W := by
  intro h
  obtain ⟨⟨T, hT⟩, _⟩ := spread_of_writes hs h
  have hq' : q < j.np := hq
  have hl : T w < j.np := hT.lt w h1 (by omega)
  have hl' : T (w + 1) < j.np := hT.lt (w + 1) (by omega) h2
  have a1 := hT.before w h1 (by omega)
  have a2 := hT.after (w + 1) (by omega) h2
  have a3 := hT.mono w h1 h2
  rw [j.first_eq hq'.le] at ha
  rw [j.first_eq (show q + 1 ≤ j.np from hq')] at hb
  rw [j.first_eq (show T w + 1 ≤ j.np from hl)] at a1
  rw [j.first_eq hl'.le] at a2
  have : q < T w + 1 := by
    by_contra hc; have := j.start_mono (show T w + 1 ≤ q by omega); omega
  have : T (w + 1) < q + 1 := by
    by_contra hc; have := j.start_mono (show q + 1 ≤ T (w + 1) by omega); omega
  omega

/-! ## Cases -/

/-- Three ranks, blocks of 8 bytes: cuts at 16 and 24, in ranks 1 and 2. -/
def fineJob : Job := ⟨8, [1, 2, 3, 4, 5], [[6, 7, 8, 9], List.replicate 12 10, List.replicate 8 11]⟩

theorem fineJob_sane : fineJob.Sane := by
  refine ⟨by decide, by decide, by decide, ?_, by decide⟩
  decide

theorem fineJob_spread : fineJob.Spread id := by
  have hp : fineJob.parts = 3 := by decide
  have key : ∀ w : Nat, w < 3 → 1 ≤ w → w < fineJob.data.length ∧ fineJob.first w < fineJob.cut w ∧ fineJob.cut w < fineJob.first (w + 1) := by
    decide
  exact ⟨fun w h1 _ => h1, fun w h1 h2 => (key w (by omega) h1).1, fun w h1 h2 => (key w (by omega) h1).2.1,
    fun w h1 h2 => (key w (by omega) h1).2.2, fun w _ _ => Nat.lt_succ_self w⟩

theorem fineJob_fits : fineJob.PartsFit := by
  have hp : fineJob.parts = 3 := by decide
  have key : ∀ w : Nat, w < 3 → min fineJob.bytes.length (fineJob.cut (w + 1)) - fineJob.cut w < 2 ^ 31 := by decide
  exact fun w hw => key w (by omega)

example : ∃ W, fineJob.writes = .ok W ∧ ∀ i, written W i = fineJob.bytes[i]? :=
  ⟨_, fineJob_spread.writes_eq fineJob_sane fineJob_fits, written_perm (.refl _)⟩

/-- The cut at 16 is where the data of rank 1 ends: writer 1 is rank 1, all of whose data belongs to the part before. -/
def boundaryJob : Job := ⟨8, [1, 2, 3, 4], [[5, 6, 7, 8], List.replicate 8 9, List.replicate 16 10]⟩

/-- **C19, negative.** The assertion at 1690 fails. -/
theorem boundary_aborts : boundaryJob.writes = .abort 134 := by decide +kernel

/-- Rank 0 holds more than the first part. -/
def heavyJob : Job := ⟨8, [1, 2, 3, 4], [List.replicate 20 5, [6, 7, 8, 9]]⟩

/-- **C19, negative.** Rank 0 puts 24 bytes into a buffer of 16. -/
theorem heavy_rank0_overflows : heavyJob.Sane ∧ heavyJob.PartsFit ∧ ∀ W, heavyJob.writes ≠ .ok W := by
  have hs : heavyJob.Sane := by
    refine ⟨by decide, by decide, by decide, ?_, by decide⟩
    decide
  refine ⟨hs, ?_, rank0_cut_fails hs (by decide) (by decide)⟩
  have hp : heavyJob.parts = 2 := by decide
  have key : ∀ w : Nat, w < 2 → min heavyJob.bytes.length (heavyJob.cut (w + 1)) - heavyJob.cut w < 2 ^ 31 := by decide
  exact fun w hw => key w (by omega)

/-- The cuts at 16 and 24 both fall into rank 2. -/
def wideJob : Job := ⟨8, [1, 2, 3, 4], [[5, 6, 7], [9, 9], List.replicate 20 10, [11]]⟩

/-- **C19, negative.** Two cuts in one rank. -/
theorem wide_rank_example : wideJob.Sane ∧ ∀ W, wideJob.writes ≠ .ok W := by
  have hs : wideJob.Sane := by
    refine ⟨by decide, by decide, by decide, ?_, by decide⟩
    decide
  exact ⟨hs, wide_rank_fails (w := 2) (q := 2) hs (by decide) (by decide) (by decide) (by decide) (by decide)⟩

/-- One part. -/
example : (Job.mk 100 [1, 2, 3, 4] [[5], [6, 7]]).writes = .ok (writesAt 0 [1, 2, 3, 4, 5, 6, 7]) := by decide +kernel

example : (Job.mk 8 [1, 2, 3, 4] [[5, 6, 7], [9, 10], [11, 11, 11, 11, 11]]).writes =
    .ok (writesAt 0 [1, 2, 3, 4, 5, 6, 7, 9, 10, 11, 11, 11, 11, 11]) := by decide +kernel

end Job
end MMSP.FileIO.Aggregated
