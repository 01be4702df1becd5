import Verif.ParallelOutput
import Verif.FileHeaderProps
/-!
# Property C18: the file written in parallel does not depend on the order of the writes
-/

namespace MMSP.FileIO

theorem writesAt_append (off : Nat) (a b : List Byte) : writesAt off (a ++ b) = writesAt off a ++ writesAt (off + a.length) b := by
  induction a generalizing off with
  | nil => rfl
  | cons x a ih =>
    simp only [List.cons_append, writesAt, List.length_cons, ih]
    rw [show off + 1 + a.length = off + (a.length + 1) by omega]

theorem mem_writesAt {off : Nat} {bs : List Byte} {i : Nat} {b : Byte} :
    (i, b) ∈ writesAt off bs ↔ off ≤ i ∧ bs[i - off]? = some b := by
  induction bs generalizing off with
  | nil => simp [writesAt]
  | cons x bs ih =>
    simp only [writesAt, List.mem_cons, Prod.mk.injEq, ih]
    constructor
    · rintro (⟨rfl, rfl⟩ | ⟨h1, h2⟩)
      · simp
      · refine ⟨by omega, ?_⟩
        rw [show i - off = i - (off + 1) + 1 by omega, List.getElem?_cons_succ]
        exact h2
    · rintro ⟨h1, h2⟩
      by_cases h : i = off
      · subst h
        left
        simp at h2
        exact ⟨rfl, h2.symm⟩
      · right
        rw [show i - off = i - (off + 1) + 1 by omega, List.getElem?_cons_succ] at h2
        exact ⟨by omega, h2⟩

theorem writesAt_fst_nodup (off : Nat) (bs : List Byte) : ((writesAt off bs).map Prod.fst).Nodup := by
  have : ∀ bs off, ((writesAt off bs).map Prod.fst) = (List.range bs.length).map (off + ·) := by
    intro bs
    induction bs with
    | nil => intro; rfl
    | cons x bs ih =>
      intro off
      simp only [writesAt, List.map_cons, ih, List.length_cons, List.range_succ_eq_map, List.map_map, Nat.add_zero,
        List.cons.injEq, true_and]
      apply List.map_congr_left
      intro k _
      simp only [Function.comp]
      omega
  rw [this]
  exact List.Nodup.map (fun a b h => by omega) List.nodup_range

/-- Writes to different positions: the file is determined by which writes there are, not by their order. -/
theorem written_of_nodup {ws : List (Nat × Byte)} (h : (ws.map Prod.fst).Nodup) (i : Nat) (b : Byte) :
    written ws i = some b ↔ (i, b) ∈ ws := by
  unfold written
  have key : ∀ (ws : List (Nat × Byte)) (f : Nat → Option Byte), (ws.map Prod.fst).Nodup →
      ((ws.foldl (fun (f : Nat → Option Byte) (w : Nat × Byte) => Function.update f w.1 (some w.2)) f) i = some b ↔
        (i, b) ∈ ws ∨ (i ∉ ws.map Prod.fst ∧ f i = some b)) := by
    intro ws
    induction ws with
    | nil => intro f _; simp
    | cons w ws ih =>
      intro f hn
      obtain ⟨h1, h2⟩ := List.nodup_cons.mp hn
      rw [List.foldl_cons, ih _ h2]
      obtain ⟨k, v⟩ := w
      simp only at h1
      constructor
      · rintro (hm | ⟨hm, hf⟩)
        · left; simp [hm]
        · by_cases hk : i = k
          · subst hk
            rw [Function.update_self] at hf
            left
            have : v = b := by simpa using hf
            simp [this]
          · rw [Function.update_of_ne hk] at hf
            right
            refine ⟨?_, hf⟩
            rw [List.map_cons, List.mem_cons]
            rintro (h | h)
            · exact hk h
            · exact hm h
      · rintro (hm | ⟨hm, hf⟩)
        · rcases List.mem_cons.mp hm with h | h
          · obtain ⟨rfl, rfl⟩ := Prod.mk.inj h
            right
            exact ⟨h1, by rw [Function.update_self]⟩
          · left; exact h
        · rw [List.map_cons, List.mem_cons] at hm
          right
          have hik : i ≠ k := fun h => hm (Or.inl h)
          exact ⟨fun h => hm (Or.inr h), by rw [Function.update_of_ne hik]; exact hf⟩
  rw [key ws _ h]
  simp

/-- The file content after the bytes `bs` were written from position 0 on, byte by byte in any order. -/
theorem written_perm {bs : List Byte} {W : List (Nat × Byte)} (h : W.Perm (writesAt 0 bs)) (i : Nat) : written W i = bs[i]? := by
  have hn : (W.map Prod.fst).Nodup := (h.map Prod.fst).nodup_iff.mpr (writesAt_fst_nodup 0 bs)
  apply Option.ext
  intro b
  rw [written_of_nodup hn, h.mem_iff, mem_writesAt]
  simp

theorem blocks_writes (h : Nat) (blocks : List (List Byte)) :
    ((List.zip (offsets h (blocks.map List.length)) blocks).flatMap fun p => writesAt p.1 p.2) = writesAt h blocks.flatten := by
  induction blocks generalizing h with
  | nil => rfl
  | cons b bs ih =>
    simp only [List.map_cons, offsets, List.zip_cons_cons, List.flatMap_cons, ih, List.flatten_cons, writesAt_append]

/-- C18: where each rank writes. The piece of rank `k` starts right after the pieces of the ranks before it; the first one
starts after the header and the block count. -/
theorem offsets_contiguous (h : Nat) (sizes : List Nat) :
    (offsets h sizes).length = sizes.length ∧
    ∀ k, k < sizes.length → (offsets h sizes)[k]? = some (h + (sizes.take k).sum) := by
  induction sizes generalizing h with
  | nil => exact ⟨rfl, fun k hk => by simp at hk⟩
  | cons s ss ih =>
    obtain ⟨h1, h2⟩ := ih (h + s)
    refine ⟨by simp [offsets, h1], ?_⟩
    intro k hk
    cases k with
    | zero => simp [offsets]
    | succ k =>
      rw [offsets, List.getElem?_cons_succ, h2 k (by simpa using hk)]
      simp [Nat.add_assoc]

/-- C18: the pieces of different ranks do not overlap. -/
theorem offsets_disjoint (h : Nat) (sizes : List Nat) {k l a b : Nat} (hkl : k < l) (hl : l < sizes.length)
    (ha : (offsets h sizes)[k]? = some a) (hb : (offsets h sizes)[l]? = some b) : a + sizes[k] ≤ b := by
  obtain ⟨_, h2⟩ := offsets_contiguous h sizes
  rw [h2 k (by omega)] at ha
  rw [h2 l hl] at hb
  have ha' : h + (sizes.take k).sum = a := by simpa using ha
  have hb' : h + (sizes.take l).sum = b := by simpa using hb
  have hmono : (sizes.take (k + 1)).sum ≤ (sizes.take l).sum := by
    have : sizes.take (k + 1) = (sizes.take l).take (k + 1) := by rw [List.take_take, min_eq_left (by omega)]
    rw [this]
    conv_rhs => rw [← List.take_append_drop (k + 1) (sizes.take l), List.sum_append]
    omega
  have hs : (sizes.take (k + 1)).sum = (sizes.take k).sum + sizes[k] := by
    rw [List.sum_take_succ _ _ (by omega)]
  omega

/-- C18: in whatever order the bytes of all ranks reach the disk, the file is the header, the block count and the blocks in rank
order, without gaps and with nothing after them. -/
theorem standard_output {text : List Byte} {blocks : List (List Byte)} (hsize : ∀ b ∈ blocks, b.length < 2 ^ 31 - 1) :
    ∃ ws, standardWrites text blocks = .ok ws ∧
      ∀ W : List (Nat × Byte), W.Perm ws → ∀ i, written W i = (text ++ intBytes blocks.length ++ blocks.flatten)[i]? := by
  refine ⟨writesAt 0 (text ++ intBytes blocks.length ++ blocks.flatten), ?_, fun W hW i => written_perm hW i⟩
  unfold standardWrites
  have h1 : ¬ (((blocks.map List.length).drop 1).any fun n => decide (2 ^ 31 - 1 ≤ n)) = true := by
    rw [Bool.not_eq_true, List.any_eq_false]
    intro n hn
    obtain ⟨b, hb, rfl⟩ := List.mem_map.mp (List.mem_of_mem_drop hn)
    have := hsize b hb
    simpa using this
  have h2 : ¬ (((blocks.map List.length).take 1).any fun n => decide (2 ^ 31 ≤ n)) = true := by
    rw [Bool.not_eq_true, List.any_eq_false]
    intro n hn
    obtain ⟨b, hb, rfl⟩ := List.mem_map.mp (List.mem_of_mem_take hn)
    have := hsize b hb
    simp only [decide_eq_true_eq]
    omega
  simp only [if_neg h1, if_neg h2, blocks_writes]
  congr 1
  rw [writesAt_append, writesAt_append]
  simp

/-- C18: a block of `INT_MAX` bytes or more is caught by the assertion on every rank but the first; a block of rank 0 with more
than `INT_MAX` bytes is not caught, and its length is converted to another `int`. -/
theorem rank0_size_unchecked {text b : List Byte} {blocks : List (List Byte)} (hb : 2 ^ 31 ≤ b.length)
    (hsize : ∀ b' ∈ blocks, b'.length < 2 ^ 31 - 1) : standardWrites text (b :: blocks) = .ub := by
  unfold standardWrites
  have h1 : ¬ ((((b :: blocks).map List.length).drop 1).any fun n => decide (2 ^ 31 - 1 ≤ n)) = true := by
    rw [Bool.not_eq_true, List.any_eq_false]
    intro n hn
    rw [List.map_cons, List.drop_succ_cons, List.drop_zero] at hn
    obtain ⟨b', hb', rfl⟩ := List.mem_map.mp hn
    have := hsize b' hb'
    simpa using this
  have h2 : (((b :: blocks).map List.length).take 1).any (fun n => decide (2 ^ 31 ≤ n)) = true := by
    simp; omega
  simp only [if_neg h1]
  exact if_pos h2

theorem later_size_checked {text b : List Byte} {blocks : List (List Byte)} (h : ∃ b' ∈ blocks, 2 ^ 31 - 1 ≤ b'.length) :
    standardWrites text (b :: blocks) = .abort 134 := by
  unfold standardWrites
  apply if_pos
  rw [List.any_eq_true]
  obtain ⟨b', hb', h'⟩ := h
  exact ⟨b'.length, by simpa using ⟨b', hb', rfl⟩, by simpa using h'⟩

/-- C15 and C18 together: the file that the ranks of a run write in parallel, in any order, is the file of `output_input`. -/
theorem standard_output_bytes {T D : Type} {comp : Option Zlib} {c : Cell T} {dec : Decimal D} {nm : List Byte} {d : Nat}
    {fields : Int} {g0 g1 : Nat → Int} {dx : Nat → D} {ws : List (Reader T)} {blocks : List (List Byte)}
    (hb : List.Forall₂ (fun w b => writeBuffer comp c w.shape w.data = .ok b) ws blocks)
    (hsize : ∀ b ∈ blocks, b.length < 2 ^ 31 - 1) :
    ∃ file writes, outputBytes comp c dec nm d fields g0 g1 dx ws = .ok file ∧
      standardWrites (header dec nm d fields g0 g1 dx) blocks = .ok writes ∧
      ∀ W : List (Nat × Byte), W.Perm writes → ∀ i, written W i = file[i]? := by
  have hw : ∀ (ws : List (Reader T)) (blocks : List (List Byte)),
      List.Forall₂ (fun w b => writeBuffer comp c w.shape w.data = .ok b) ws blocks → writeAll comp c ws = .ok blocks.flatten := by
    intro ws blocks h
    induction h with
    | nil => rfl
    | cons h1 _ ih => simp only [writeAll, h1, ih, Outcome.ok_bind, List.flatten_cons]
  obtain ⟨writes, h1, h2⟩ := standard_output (text := header dec nm d fields g0 g1 dx) hsize
  refine ⟨_, writes, ?_, h1, h2⟩
  simp only [outputBytes, dataSection, hw ws blocks hb, Outcome.ok_bind, hb.length_eq, List.append_assoc]

/-- Three ranks with blocks of different length, written backwards. -/
example : (∀ b ∈ [[1, 2], [3], ([] : List Byte)], b.length < 2 ^ 31 - 1) ∧
    ∃ ws, standardWrites [9, 9] [[1, 2], [3], []] = .ok ws ∧ ws.reverse.Perm ws ∧ ws.length = 9 := by
  refine ⟨by decide, _, rfl, List.reverse_perm _, rfl⟩

end MMSP.FileIO
