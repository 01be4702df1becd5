import Mathlib.Data.List.TakeWhile
import Verif.Voxel
import Verif.SessionProps
/-!
# Properties C73 and C74: voxel files, and the old compression tool
-/

namespace MMSP.Voxel

open FileIO Tool Sessions

/-! ## Text of the voxel file -/

theorem readValues_failed (n : Nat) : readValues n none = List.replicate n none := by
  induction n with
  | zero => rfl
  | succ n ih => rw [readValues, List.replicate_succ]; exact congrArg _ ih

theorem readValues_end {ws : List Byte} (h : ∀ b ∈ ws, isSpace b = true) (n : Nat) : readValues n (some ws) = List.replicate n none := by
  cases n with
  | zero => rfl
  | succ n =>
    have hd : ws.dropWhile isSpace = [] := by
      rw [List.dropWhile_eq_nil_iff]; exact h
    have he : extractInt ws = none := by unfold extractInt; rw [hd]; rfl
    simp only [readValues, extract, he, failValue, hd, if_true]
    rw [readValues_failed, List.replicate_succ]

theorem rows_read (vs : List CInt) (k : Nat) : ∀ (count : Nat) (pre : List Byte), (∀ b ∈ pre, isSpace b = true) →
    readValues (vs.length + k) (some (pre ++ rows count vs)) = (vs.map fun v => some v.1) ++ List.replicate k none := by
  induction vs with
  | nil =>
    intro _ pre hpre
    rw [List.length_nil, Nat.zero_add, rows, List.append_nil, readValues_end hpre]; rfl
  | cons v vs ih =>
    intro count pre hpre
    have e := extractInt_intDec (n := v.1) v.2 hpre (b := blank) (by decide)
      (if count + 1 = 20 then newline :: rows 0 vs else rows (count + 1) vs)
    rw [List.length_cons, show vs.length + 1 + k = (vs.length + k) + 1 by omega]
    simp only [readValues, rows, extract, e, List.map_cons, List.cons_append]
    congr 1
    split_ifs
    · exact ih 0 [blank, newline] (by decide)
    · exact ih (count + 1) [blank] (by decide)

theorem digit_not_newline {l : List Byte} (h : ∀ b ∈ l, isDigit b = true) : newline ∉ l := fun hm => by
  have := h _ hm; revert this; decide

/-- **C73.** The lengths and the values that are printed are read back, whatever the lines in between say. If there are fewer values than nodes, the
remaining cells are not set, and no error is reported. -/
theorem readVox_voxText {g : Shape} (hx : IsInt (g.x1 0 - g.x0 0)) (hy : IsInt (g.x1 1 - g.x0 1)) (hz : IsInt (g.x1 2 - g.x0 2))
    {vs : List CInt} {k : Nat} (hv : ((vs.length + k : Nat) : Int) = (g.x1 0 - g.x0 0) * (g.x1 1 - g.x0 1) * (g.x1 2 - g.x0 2)) :
    readVox (voxText g vs) = .ok ((g.x1 0 - g.x0 0, g.x1 1 - g.x0 1, g.x1 2 - g.x0 2), (vs.map fun v => some v.1) ++ List.replicate k none) := by
  have e1 := fun r => extractInt_intDec (ws := []) hx (by simp) (b := blank) (by decide) r
  have e2 := fun r => extractInt_intDec (ws := [blank]) hy (by decide) (b := blank) (by decide) r
  have e3 := fun r => extractInt_intDec (ws := [blank]) hz (by decide) (b := newline) (by decide) r
  simp only [List.nil_append, List.cons_append] at e1 e2 e3
  have n1 : newline ∉ secondLine ++ intDec (grainSet vs).length := by
    rw [List.mem_append, not_or]
    refine ⟨by decide, ?_⟩
    unfold intDec
    rw [if_neg (by omega)]
    exact digit_not_newline (natDec_digits _)
  have n2 : newline ∉ thirdLine := by decide
  have l1 := fun r => getline_append (nm := []) (by simp) r
  simp only [List.nil_append] at l1
  unfold readVox voxText
  simp only [extract, e1, e2, e3, Option.map_some, l1]
  rw [getline_append n1, getline_append n2, if_neg (by omega)]
  have := rows_read vs k 0 [] (by simp)
  rw [List.nil_append] at this
  rw [show ((g.x1 0 - g.x0 0) * (g.x1 1 - g.x0 1) * (g.x1 2 - g.x0 2)).toNat = vs.length + k by omega, this]

/-- The number of grains printed in the second line is the number of distinct values. -/
theorem grainSet_card (vs : List CInt) : (grainSet vs).length = vs.toFinset.card := by
  have key : ∀ (vs s : List CInt), s.Nodup →
      (vs.foldl (fun s v => if v ∈ s then s else v :: s) s).Nodup ∧
      ∀ v, v ∈ vs.foldl (fun s v => if v ∈ s then s else v :: s) s ↔ v ∈ s ∨ v ∈ vs := by
    intro vs
    induction vs with
    | nil => intro s hs; simp [hs]
    | cons a vs ih =>
      intro s hs
      simp only [List.foldl_cons]
      split_ifs with h
      · refine ⟨(ih s hs).1, fun v => ?_⟩
        rw [(ih s hs).2, List.mem_cons]
        constructor
        · rintro (h1 | h1) <;> simp [h1]
        · rintro (h1 | rfl | h1) <;> simp_all
      · have hs' : (a :: s).Nodup := List.nodup_cons.2 ⟨h, hs⟩
        refine ⟨(ih _ hs').1, fun v => ?_⟩
        rw [(ih _ hs').2, List.mem_cons, List.mem_cons]
        tauto
  have hk := key vs [] List.nodup_nil
  change (grainSet vs).Nodup ∧ _ at hk
  rw [← List.toFinset_card_of_nodup hk.1]
  congr 1
  ext v
  rw [List.mem_toFinset, List.mem_toFinset]
  exact (hk.2 v).trans (by simp)

theorem mapM_ok {α β : Type} {f : α → Outcome β} {h : α → β} : ∀ {l : List α}, (∀ a ∈ l, f a = .ok (h a)) → l.mapM f = .ok (l.map h)
  | [], _ => rfl
  | a :: l, hl => by
    rw [List.mapM_cons, hl a (by simp), mapM_ok fun b hb => hl b (by simp [hb])]
    rfl

theorem nodes3 {g : Shape} (h3 : g.dim = 3) : g.nodes = (g.x1 0 - g.x0 0) * (g.x1 1 - g.x0 1) * (g.x1 2 - g.x0 2) := by
  unfold Shape.nodes Shape.xx
  rw [h3]
  unfold slice
  rw [show Finset.Ico (0 + 1) 3 = {1, 2} by decide, Finset.prod_pair (by decide)]
  ring

/-! ## Round trip -/

section RoundTrip
variable {D : Type} (comp : Option Zlib) (fresh : Int → CInt) (dec : Decimal D) (dx0 : D)

/-- Files of `grid<3,int>`. -/
def format : Format CInt D := ⟨comp, primCell intCodec, fresh, dec, dx0, intName, 3⟩

variable {comp fresh dec dx0}

theorem accepts_header {fields : Int} {g0 g1 : Nat → Int} {dx : Nat → D} (rest : List Byte) :
    accepts (header dec intName 3 fields g0 g1 dx ++ rest) = true := by
  unfold accepts header
  rw [List.append_assoc, List.cons_append, getline_append (by decide)]
  have e := fun r => extractInt_intDec (n := 3) ⟨by decide, by decide⟩ (ws := []) (by simp) (b := newline) (by decide) r
  simp only [List.nil_append] at e
  simp only [List.append_assoc, List.cons_append, Nat.cast_ofNat, e]
  decide

theorem data_eq {g : Shape} (hg : g.Wf) (h0 : g.ghosts = 0) (data : Int → CInt) {i : Int} (hi : 0 ≤ i) (hn : i < g.nodes) :
    data i = cellAt g data (g.position i) := by
  unfold cellAt
  rw [← ParallelRun.atNode_raw hg (bd := .serial) (fun _ => h0) hi hn]
  rfl

/-- **C73.** `MC2vox` on any file of a three-dimensional `int` grid, however many ranks wrote it: the text shows the three lengths, the number of distinct
values, and the values in the order of the node numbers. -/
theorem mc2vox_text (hz : Lawful comp) {fields : Int} (hf : IsInt fields) {g0 g1 : Nat → Int} (hg : ∀ j, j < 3 → g0 j < g1 j)
    (hint : ∀ j, j < 3 → IsInt (g0 j) ∧ IsInt (g1 j)) (dx : Nat → D) {B0 B1 : Nat → BC} {F : (Nat → Int) → CInt} {ws : List (Reader CInt)}
    (hrun : Run (primCell intCodec) 3 g0 g1 B0 B1 F ws) (hshrink : ∀ w ∈ ws, Shrinks comp (primCell intCodec) w) {fs : Files} {infile : List Byte}
    (out : Option (List Byte)) (hne : voxName infile out ≠ infile) :
    ∃ file, outputBytes comp (primCell intCodec) dec intName 3 fields g0 g1 dx ws = .ok file ∧ (fs infile = some file →
      let g := serialShape 3 g0 g1 B0 B1
      let vs := (List.range g.nodes.toNat).map fun i : Nat => F (g.position i)
      mc2vox comp fresh dec dx0 fs infile out = (Function.update fs (voxName infile out) (some (voxText g vs)), .ok ())) := by
  obtain ⟨file, e1, e2⟩ := output_denotes (format comp fresh dec dx0) (primCell_roundTrips intCodec) hz (show 0 < 3 by decide)
    (show IsInt 3 from ⟨by decide, by decide⟩) (show newline ∉ intName by decide) hf
    (fun j hj => (hg j hj).le) hint dx hrun hshrink
  refine ⟨file, e1, fun hfile => ?_⟩
  obtain ⟨o, h1, h2⟩ := e2 .serial intName (show checkType intName intName = .ok () by decide) 1 (by decide) 1 0 ⟨by decide, by decide⟩
  intro g vs
  have hacc : accepts file = true := by
    obtain ⟨b, -, hb⟩ : ∃ b, dataSection comp (primCell intCodec) ws = .ok b ∧ header dec intName 3 fields g0 g1 dx ++ b = file := by
      change (dataSection comp (primCell intCodec) ws).bind _ = _ at e1
      cases h : dataSection comp (primCell intCodec) ws with
      | ok b => rw [h] at e1; exact ⟨b, rfl, Outcome.ok.inj e1⟩
      | ub => rw [h] at e1; cases e1
      | abort c => rw [h] at e1; cases e1
    rw [← hb]
    exact accepts_header b
  have hlim : ∀ j, j < 3 → o.local_.shape.x0 j = g0 j ∧ o.local_.shape.x1 j = g1 j := by
    intro j hj
    obtain ⟨_, b2, b3, _⟩ := h2.box
    rw [b2, b3]
    change (Meta.of dec 3 fields g0 g1 dx B0 B1).g0 j = _ ∧ (Meta.of dec 3 fields g0 g1 dx B0 B1).g1 j = _
    unfold Meta.g0 Meta.g1 Meta.of
    rw [getD_range hj]
    exact ⟨rfl, rfl⟩
  have hdim : o.local_.shape.dim = 3 := h2.box.1
  have hgh : o.local_.shape.ghosts = 0 := h2.box.2.2.2
  have hwf : o.local_.shape.Wf := by
    refine ⟨by omega, fun j hj => ?_, by omega⟩
    rw [hdim] at hj
    rw [(hlim j hj).1, (hlim j hj).2]; exact hg j hj
  have hwf' : g.Wf := ⟨show 0 < 3 by decide, fun j hj => hg j hj, le_refl 0⟩
  have hnodes : o.local_.shape.nodes = g.nodes := by
    rw [nodes3 hdim, nodes3 (g := g) rfl]
    simp only [(hlim 0 (by decide)).1, (hlim 0 (by decide)).2, (hlim 1 (by decide)).1, (hlim 1 (by decide)).2, (hlim 2 (by decide)).1, (hlim 2 (by decide)).2]
    rfl
  have hpos : ∀ i : Int, 0 ≤ i → i < g.nodes → o.local_.shape.SamePoint (o.local_.shape.position i) (g.position i) := by
    intro i _ _ j hj
    rw [hdim] at hj
    unfold Shape.position Shape.xx
    rw [(hlim j hj).1, hdim]
    have e : slice 3 (fun j => o.local_.shape.x1 j - o.local_.shape.x0 j) = slice 3 fun j => g.x1 j - g.x0 j := by
      funext k
      unfold slice
      refine Finset.prod_congr rfl fun l hl => ?_
      have := hlim l (Finset.mem_Ico.1 hl).2
      beta_reduce
      rw [this.1, this.2]; rfl
    rw [e]; rfl
  have hnn : o.local_.shape.cells = o.local_.shape.nodes := by
    unfold Shape.cells Shape.nodes Shape.sx Shape.xx Shape.s0 Shape.s1
    rw [hgh]; simp
  have hvals : values o.local_.shape o.local_.data = .ok vs := by
    unfold values
    rw [hnodes]
    refine mapM_ok fun i hi => ?_
    have hi' : (i : Int) < g.nodes := by have := List.mem_range.1 hi; omega
    have : o.local_.shape.atNode .serial (i : Int) = i := rfl
    rw [this]
    unfold deref
    rw [if_pos ⟨by omega, by omega⟩, data_eq hwf hgh o.local_.data (by omega) (by omega)]
    congr 1
    have hn : o.local_.shape.IsNode (o.local_.shape.position i) := Shape.position_isNode hwf (by omega) (by omega)
    have hn2 : o.local_.shape.IsNode (g.position i) := by
      intro j hj; rw [← hpos i (by omega) hi' j hj]; exact hn j hj
    rw [← h2.value _ hn2]
    unfold cellAt
    rw [rawOffset_congr (hpos i (by omega) hi')]
  have htext : voxText o.local_.shape vs = voxText g vs := by
    unfold voxText
    simp only [(hlim 0 (by decide)).1, (hlim 0 (by decide)).2, (hlim 1 (by decide)).1, (hlim 1 (by decide)).2, (hlim 2 (by decide)).1, (hlim 2 (by decide)).2]
    rfl
  unfold mc2vox
  rw [hfile]
  dsimp only
  rw [if_neg (by rw [hacc]; decide), Function.update_of_ne hne.symm, hfile]
  rw [Option.getD_some]
  have h1' : input comp (primCell intCodec) fresh dec dx0 .serial intName 3 1 1 0 file = .ok o := h1
  rw [h1', Outcome.ok_bind, hvals, Outcome.ok_bind, htext]
  simp only [Function.update_idem]

/-- The grid that `vox2MC` makes. -/
def movedShape (g0 g1 : Nat → Int) : Shape := ⟨3, fun _ => 0, side (g1 0 - g0 0, g1 1 - g0 1, g1 2 - g0 2), fun _ => .periodic, fun _ => .periodic, 0⟩

theorem moved_side (g0 g1 : Nat → Int) {j : Nat} (hj : j < 3) : (movedShape g0 g1).x1 j = g1 j - g0 j := by
  obtain rfl | rfl | rfl : j = 0 ∨ j = 1 ∨ j = 2 := by omega
  all_goals rfl

/-- **C73.** `MC2vox` followed by `vox2MC` gives a file with the same values, node by node; the grid is moved to the origin, has spacing 1 and periodic faces. -/
theorem voxel_roundTrip (hz : Lawful comp) {fields : Int} (hf : IsInt fields) {g0 g1 : Nat → Int} (hg : ∀ j, j < 3 → g0 j < g1 j)
    (hint : ∀ j, j < 3 → IsInt (g0 j) ∧ IsInt (g1 j) ∧ IsInt (g1 j - g0 j)) (dx : Nat → D) {B0 B1 : Nat → BC} {F : (Nat → Int) → CInt}
    {ws : List (Reader CInt)} (hrun : Run (primCell intCodec) 3 g0 g1 B0 B1 F ws) (hshrink : ∀ w ∈ ws, Shrinks comp (primCell intCodec) w)
    (hmoved : ∀ data, Shrinks comp (primCell intCodec) ⟨movedShape g0 g1, data⟩) (hsize : (movedShape g0 g1).nodes < 2 ^ 61) (one : D) (junk : Int → CInt)
    {fs : Files} {infile : List Byte} (vox mc : Option (List Byte)) (hne : voxName infile vox ≠ infile) :
    ∃ file, outputBytes comp (primCell intCodec) dec intName 3 fields g0 g1 dx ws = .ok file ∧ (fs infile = some file →
      ∃ fs1 file', mc2vox comp fresh dec dx0 fs infile vox = (fs1, .ok ()) ∧
        vox2mc comp dec one junk fs1 (voxName infile vox) mc = (Function.update fs1 (mcName (voxName infile vox) mc) (some file'), .ok ()) ∧
        Denotes (format comp fresh dec dx0) (Meta.of dec 3 1 (fun _ => 0) (fun j => g1 j - g0 j) (fun _ => one) (fun _ => .periodic) fun _ => .periodic)
          (fun x => F fun j => x j + g0 j) file') := by
  obtain ⟨file, e1, e2⟩ := mc2vox_text (fresh := fresh) (dec := dec) (dx0 := dx0) hz hf hg (fun j hj => ⟨(hint j hj).1, (hint j hj).2.1⟩) dx hrun hshrink
    (fs := fs) vox hne
  refine ⟨file, e1, fun hfile => ?_⟩
  have e2 := e2 hfile
  dsimp only at e2
  let g := serialShape 3 g0 g1 B0 B1
  let vs := (List.range g.nodes.toNat).map fun i : Nat => F (g.position i)
  have hwf : g.Wf := ⟨show 0 < 3 by decide, fun j hj => hg j hj, le_refl 0⟩
  have hwf' : (movedShape g0 g1).Wf := by
    refine ⟨show 0 < 3 by decide, fun j hj => ?_, le_refl 0⟩
    rw [moved_side g0 g1 hj]
    have := hg j hj
    change 0 < g1 j - g0 j
    omega
  have hnodes : (movedShape g0 g1).nodes = g.nodes := by
    rw [nodes3 rfl, nodes3 rfl, moved_side g0 g1 (by decide), moved_side g0 g1 (by decide), moved_side g0 g1 (by decide)]
    change (g1 0 - g0 0 - 0) * (g1 1 - g0 1 - 0) * (g1 2 - g0 2 - 0) = (g1 0 - g0 0) * (g1 1 - g0 1) * (g1 2 - g0 2)
    simp
  have hpos : 0 < g.nodes := by
    rw [nodes3 rfl]
    exact mul_pos (mul_pos (sub_pos.2 (hg 0 (by decide))) (sub_pos.2 (hg 1 (by decide)))) (sub_pos.2 (hg 2 (by decide)))
  have hread := readVox_voxText (g := g) (hint 0 (by decide)).2.2 (hint 1 (by decide)).2.2 (hint 2 (by decide)).2.2 (vs := vs) (k := 0) (by
    rw [← nodes3 (g := g) rfl]
    simp only [vs, List.length_map, List.length_range]
    omega)
  rw [List.replicate_zero, List.append_nil] at hread
  let data := fillNodes junk (vs.map fun v => some v.1)
  have hdata : ∀ i : Int, 0 ≤ i → i < g.nodes → data i = F (g.position i) := by
    intro i h0 h1
    have hi : i.toNat < g.nodes.toNat := by omega
    simp only [data, fillNodes, vs, List.getElem?_map, List.getElem?_range hi, Option.map_some, Option.getD_some]
    rw [dif_pos (F _).2, Int.toNat_of_nonneg h0]
  obtain ⟨file', k1, k2⟩ := output_denotes (format comp fresh dec dx0) (primCell_roundTrips intCodec) hz (show 0 < 3 by decide)
    (show IsInt 3 from ⟨by decide, by decide⟩) (show newline ∉ intName by decide) (fields := 1) ⟨by decide, by decide⟩
    (g0 := fun _ => 0) (g1 := (movedShape g0 g1).x1)
    (fun j hj => by rw [moved_side g0 g1 hj]; have := hg j hj; omega)
    (fun j hj => by rw [moved_side g0 g1 hj]; exact ⟨⟨by decide, by decide⟩, (hint j hj).2.2⟩) (fun _ => one)
    (serial_run (c := primCell intCodec) (d := 3) (fun j hj => by rw [moved_side g0 g1 hj]; have := hg j hj; omega) (fun _ => .periodic) (fun _ => .periodic)
      (data := data) (fun _ _ _ => trivial) (by
        intro n hn
        have := prim_size intCodec hwf' data
        obtain rfl := Outcome.ok.inj (this.symm.trans hn)
        have hs : ((sites (movedShape g0 g1) : Nat) : Int) = (movedShape g0 g1).nodes := by
          rw [Shape.nodes_eq hwf']
          unfold sites
          rw [Nat.cast_prod]
          refine Finset.prod_congr rfl fun j hj => ?_
          have := hwf'.side j (Finset.mem_range.1 hj)
          omega
        have e4 : intCodec.width = 4 := rfl
        rw [e4]
        have : sites (movedShape g0 g1) < 2 ^ 61 := by omega
        omega))
    (by
      intro w hw
      obtain rfl := List.mem_singleton.1 hw
      exact hmoved data)
  refine ⟨_, file', e2, ?_, ?_⟩
  · unfold vox2mc
    rw [Function.update_self]
    dsimp only
    rw [hread, Outcome.ok_bind]
    have k1'' : outputBytes comp (primCell intCodec) dec intName 3 1 (fun _ => 0) (side (g.x1 0 - g.x0 0, g.x1 1 - g.x0 1, g.x1 2 - g.x0 2)) (fun _ => one)
        [⟨⟨3, fun _ => 0, side (g.x1 0 - g.x0 0, g.x1 1 - g.x0 1, g.x1 2 - g.x0 2), fun _ => .periodic, fun _ => .periodic, 0⟩, fillNodes junk (vs.map fun v => some v.1)⟩] = .ok file' := k1
    rw [k1'']
  · have hm : Meta.of dec 3 1 (fun _ => 0) (movedShape g0 g1).x1 (fun _ => one) (fun _ => .periodic) (fun _ => .periodic) =
        Meta.of dec 3 1 (fun _ => 0) (fun j => g1 j - g0 j) (fun _ => one) (fun _ => .periodic) fun _ => .periodic := rfl
    rw [← hm]
    refine Denotes.congr k2 fun x hx => ?_
    have hx' : (movedShape g0 g1).IsNode x := by
      intro j hj
      have := hx j hj
      change (Meta.of dec 3 1 (fun _ => 0) (movedShape g0 g1).x1 (fun _ => one) (fun _ => .periodic) (fun _ => .periodic)).g0 j ≤ _ ∧
        _ < (Meta.of dec 3 1 (fun _ => 0) (movedShape g0 g1).x1 (fun _ => one) (fun _ => .periodic) (fun _ => .periodic)).g1 j at this
      unfold Meta.g0 Meta.g1 Meta.of at this
      rw [getD_range (show j < 3 from hj)] at this
      exact this
    have hy : g.IsNode fun j => x j + g0 j := by
      intro j hj
      have := hx' j hj
      rw [moved_side g0 g1 hj] at this
      change g0 j ≤ x j + g0 j ∧ x j + g0 j < g1 j
      change 0 ≤ x j ∧ _ at this
      omega
    have hoff : (movedShape g0 g1).rawOffset x = g.rawOffset fun j => x j + g0 j := by
      unfold Shape.rawOffset Shape.sx
      have e : slice 3 (fun j => (movedShape g0 g1).s1 j - (movedShape g0 g1).s0 j) = slice 3 fun j => g.s1 j - g.s0 j := by
        funext k
        unfold slice
        refine Finset.prod_congr rfl fun l hl => ?_
        have := moved_side g0 g1 (Finset.mem_Ico.1 hl).2
        unfold Shape.s1 Shape.s0
        beta_reduce
        rw [this]
        change g1 l - g0 l + 0 - (0 - 0) = g1 l + 0 - (g0 l - 0)
        omega
      change encode 3 _ _ = encode 3 _ _
      change encode 3 (slice 3 _) _ = encode 3 (slice 3 _) _
      rw [e]
      unfold encode
      refine Finset.sum_congr rfl fun j hj => ?_
      unfold Shape.s0
      change (x j - (0 - 0)) * _ = (x j + g0 j - (g0 j - 0)) * _
      congr 1
      omega
    have hcell : g.IsCell fun j => x j + g0 j := fun j hj => by
      have := hy j hj
      change g0 j - 0 ≤ _ ∧ _ < g1 j + 0
      change g0 j ≤ _ ∧ _ < g1 j at this
      omega
    have hb := Shape.rawOffset_bounds hwf hcell
    have hcn : g.cells = g.nodes := by
      unfold Shape.cells Shape.nodes Shape.sx Shape.xx Shape.s0 Shape.s1
      have : g.ghosts = 0 := rfl
      rw [this]; simp
    change data ((movedShape g0 g1).rawOffset x) = _
    rw [hoff, hdata _ hb.1 (by omega)]
    have hp : g.SamePoint (g.position (g.rawOffset fun j => x j + g0 j)) fun j => x j + g0 j := by
      have h1 := Shape.position_isNode hwf hb.1 (by omega : _ < g.nodes)
      refine Shape.rawOffset_inj (fun j hj => ?_) hcell ?_
      · have := h1 j hj
        change g0 j - 0 ≤ _ ∧ _ < g1 j + 0
        change g0 j ≤ _ ∧ _ < g1 j at this
        omega
      · exact (ParallelRun.atNode_raw hwf (bd := .serial) (fun _ => rfl) hb.1 (by omega)).symm
    obtain ⟨w, hw, hwn⟩ := hrun.cover (fun j => x j + g0 j) hy
    have hd : w.shape.dim = 3 := (hrun.part w hw).dim
    have hwn' : w.shape.IsNode (g.position (g.rawOffset fun j => x j + g0 j)) := by
      intro j hj
      have := hwn j hj
      rw [hp j (by rw [hd] at hj; exact hj)]
      exact this
    rw [← hrun.value w hw _ hwn', ← hrun.value w hw _ hwn]
    unfold cellAt
    rw [rawOffset_congr (fun j hj => hp j (by rw [hd] at hj; exact hj))]

/-- **C73.** A voxel file with `k` values missing: `vox2MC` reports success, and the last `k` nodes of its grid hold whatever was in the memory. -/
theorem short_file {g : Shape} (hx : IsInt (g.x1 0 - g.x0 0)) (hy : IsInt (g.x1 1 - g.x0 1)) (hz : IsInt (g.x1 2 - g.x0 2))
    {vs : List CInt} {k : Nat} (hv : ((vs.length + k : Nat) : Int) = (g.x1 0 - g.x0 0) * (g.x1 1 - g.x0 1) * (g.x1 2 - g.x0 2)) (one : D) (junk : Int → CInt)
    {fs : Files} {infile : List Byte} (hfs : fs infile = some (voxText g vs)) (mc : Option (List Byte)) {file : List Byte}
    (hfile : outputBytes comp (primCell intCodec) dec intName 3 1 (fun _ => 0) (movedShape g.x0 g.x1).x1 (fun _ => one)
      [⟨movedShape g.x0 g.x1, fun i => vs.getD i.toNat (junk i)⟩] = .ok file) :
    vox2mc comp dec one junk fs infile mc = (Function.update fs (mcName infile mc) (some file), .ok ()) := by
  have hdata : fillNodes junk ((vs.map fun v => some v.1) ++ List.replicate k none) = fun i : Int => vs.getD i.toNat (junk i) := by
    funext i
    unfold fillNodes
    by_cases hi : i.toNat < vs.length
    · rw [List.getElem?_append_left (by simpa using hi)]
      simp only [List.getElem?_map, List.getElem?_eq_getElem hi, Option.map_some, Option.getD_some, List.getD_eq_getElem?_getD]
      rw [dif_pos (vs[i.toNat]).2]
    · rw [List.getElem?_append_right (by simpa using hi), List.getD_eq_getElem?_getD, List.getElem?_eq_none (l := vs) (by omega)]
      simp only [List.getElem?_replicate]
      split_ifs <;> rfl
  unfold vox2mc
  rw [hfs]
  dsimp only
  rw [readVox_voxText hx hy hz hv, Outcome.ok_bind]
  dsimp only
  rw [hdata]
  have : outputBytes comp (primCell intCodec) dec intName 3 1 (fun _ => 0) (side (g.x1 0 - g.x0 0, g.x1 1 - g.x0 1, g.x1 2 - g.x0 2)) (fun _ => one)
      [⟨⟨3, fun _ => 0, side (g.x1 0 - g.x0 0, g.x1 1 - g.x0 1, g.x1 2 - g.x0 2), fun _ => .periodic, fun _ => .periodic, 0⟩,
        fun i => vs.getD i.toNat (junk i)⟩] = .ok file := hfile
  rw [this]

/-! ## Names -/

/-- **C73.** When the output has the name of the input, which is the default for an input called `….PF`, `MC2vox` empties the input and aborts. -/
theorem mc2vox_destroys {fs : Files} {infile content : List Byte} (hfs : fs infile = some content) (hacc : accepts content = true) {out : Option (List Byte)}
    (hname : voxName infile out = infile) :
    mc2vox comp fresh dec dx0 fs infile out = (Function.update fs infile (some []), .abort 134) := by
  unfold mc2vox
  rw [hfs]
  dsimp only
  rw [if_neg (by rw [hacc]; decide), hname, Function.update_self]
  have : input comp (primCell intCodec) fresh dec dx0 .serial intName 3 1 1 0 [] = .abort 134 := by
    unfold input inputHeader
    have h : checkType intName (getline []).1 = .abort 134 := by decide
    dsimp only
    rw [h]; rfl
  rw [Option.getD_some, this]
  rfl

theorem default_name {stem : List Byte} : voxName (stem ++ ascii ".PF") none = stem ++ ascii ".PF" := by
  have h : lastDot (stem ++ ascii ".PF") = some stem.length := by
    unfold lastDot
    have e : (stem ++ ascii ".PF").length = stem.length + 1 + 1 + 1 := by rw [List.length_append]; rfl
    rw [e, List.range_succ, List.range_succ, List.range_succ]
    have g0 : (stem ++ ascii ".PF")[stem.length]? = some dot := by
      rw [List.getElem?_append_right le_rfl, Nat.sub_self]; rfl
    have g1 : (stem ++ ascii ".PF")[stem.length + 1]? = some 80 := by
      rw [List.getElem?_append_right (by omega), show stem.length + 1 - stem.length = 1 by omega]; rfl
    have g2 : (stem ++ ascii ".PF")[stem.length + 1 + 1]? = some 70 := by
      rw [List.getElem?_append_right (by omega), show stem.length + 1 + 1 - stem.length = 2 by omega]; rfl
    simp only [List.filter_append, List.filter_cons, List.filter_nil, g0, g1, g2, beq_self_eq_true, if_true]
    rw [if_neg (by decide), if_neg (by decide)]
    simp
  unfold voxName stemName
  rw [h]
  dsimp only
  rw [List.take_left]

/-- **C73.** Grids of `unsigned int` and of `scalar<int>` pass the tests that ask for "int or scalar::int"; then the program exits with -2 and leaves an empty
output file. -/
theorem mc2vox_other_types {t : List Byte} (ht : t = ascii "unsigned int" ∨ t = ascii "scalar:int" ∨ t = ascii "short int") {rest : List Byte} {fs : Files}
    {infile : List Byte} (hfs : fs infile = some (gridName t ++ newline :: (intDec 3 ++ newline :: rest))) {out : Option (List Byte)}
    (hname : voxName infile out ≠ infile) :
    mc2vox comp fresh dec dx0 fs infile out = (Function.update fs (voxName infile out) (some []), .abort (-2)) := by
  have hl : newline ∉ gridName t := by rcases ht with rfl | rfl | rfl <;> decide
  have e := extractInt_intDec (n := 3) ⟨by decide, by decide⟩ (ws := []) (by simp) (b := newline) (by decide) rest
  simp only [List.nil_append] at e
  have hacc : accepts (gridName t ++ newline :: (intDec 3 ++ newline :: rest)) = true := by
    unfold accepts
    rw [getline_append hl]
    simp only [e]
    rcases ht with rfl | rfl | rfl <;> decide
  unfold mc2vox
  rw [hfs]
  dsimp only
  rw [if_neg (by rw [hacc]; decide), Function.update_of_ne hname.symm, hfs]
  have : input comp (primCell intCodec) fresh dec dx0 .serial intName 3 1 1 0 (gridName t ++ newline :: (intDec 3 ++ newline :: rest)) = .abort (-2) := by
    unfold input inputHeader
    rw [getline_append hl]
    have h : checkType intName (gridName t) = .abort (-2) := by rcases ht with rfl | rfl | rfl <;> decide
    dsimp only
    rw [h]; rfl
  rw [Option.getD_some, this]
  rfl

end RoundTrip

/-! ## mmsp2z -/

section Z

variable {D : Type} (z : Zlib) (dec : Decimal D)

/-- The header is copied, with the spacings as the tool prints them. -/
theorem mmsp2z_header {nm : List Byte} (hnm : newline ∉ nm) {d : Nat} (hd : 1 ≤ d ∧ d ≤ 3) {fields : Int} (hf : IsInt fields)
    {g0 g1 : Nat → Int} (hint : ∀ j, j < d → IsInt (g0 j) ∧ IsInt (g1 j)) (dx : Nat → D) {n : Nat} (hn : IsInt n) (rest : List Byte) :
    mmsp2z z dec (header dec nm d fields g0 g1 dx ++ (intBytes n ++ rest)) =
      (zBlocks z d n rest).bind fun b => .ok (header dec nm d fields g0 g1 (fun j => dec.round6 (dx j)) ++ (intBytes n ++ b)) := by
  unfold mmsp2z header
  simp only [List.append_assoc, List.cons_append]
  rw [getline_append hnm]
  have e1 := extractInt_intDec (n := d) (show IsInt d from ⟨by omega, by omega⟩) (ws := []) (by decide) (b := newline) (by decide)
  have e2 := extractInt_intDec hf (ws := [newline]) (by decide) (b := newline) (by decide)
  simp only [List.singleton_append, List.nil_append] at e1 e2
  have e3 := extractPairs_header (d := d) (l := (List.range d).map fun j => (g0 j, g1 j)) (by simp) (by
    intro p hp
    obtain ⟨j, hj, rfl⟩ := List.mem_map.mp hp
    exact hint j (List.mem_range.mp hj))
  simp only [List.flatMap_map] at e3
  have e4 := extractReals_header dec ((List.range d).map dx) (intBytes n ++ rest)
  simp only [List.flatMap_map, List.length_map, List.length_range, List.map_map] at e4
  have e5 : ignore 10 (newline :: (intBytes n ++ rest)) = intBytes n ++ rest := rfl
  simp only [Outcome.ok_bind, e1, e2, orUb]
  rw [if_neg (by omega)]
  simp only [Int.toNat_natCast, e3, Outcome.ok_bind, e4, e5, freadInt_intBytes hn, List.flatMap_map]
  rfl

/-- A block as `mmsp2z` expects it: limits, number of bytes, bytes. -/
structure OldBlock where
  limits : List (Int × Int)
  raw : List Byte

def OldBlock.bytes (b : OldBlock) : List Byte := (b.limits.flatMap fun p => intBytes p.1 ++ intBytes p.2) ++ (ulongBytes b.raw.length ++ b.raw)

/-- What stands for the block in the compressed file. -/
def OldBlock.packed (b : OldBlock) (disk : List Byte) : List Byte :=
  (b.limits.flatMap fun p => intBytes p.1 ++ intBytes p.2) ++ ulongBytes b.raw.length ++ ulongBytes disk.length ++ disk

structure OldBlock.Valid (d : Nat) (b : OldBlock) : Prop where
  dim : b.limits.length = d
  int : ∀ p ∈ b.limits, IsInt p.1 ∧ IsInt p.2
  size : b.raw.length < 2 ^ 64

theorem zBlock_old (hz : z.Lawful) {d : Nat} {b : OldBlock} (hb : b.Valid d) (rest : List Byte) :
    zBlock z d (b.bytes ++ rest) = if b.raw.length < 8 then .abort 134 else .ok (b.packed (z.compress b.raw), rest) := by
  unfold zBlock OldBlock.bytes OldBlock.packed
  have e1 := readPairs_append b.limits hb.int (ulongBytes b.raw.length ++ b.raw ++ rest)
  rw [hb.dim] at e1
  rw [List.append_assoc, e1, Outcome.ok_bind, List.append_assoc, freadULong_ulongBytes hb.size, Outcome.ok_bind]
  dsimp only
  by_cases h : b.raw.length < 8
  · rw [if_pos h, if_pos (by omega)]
  · rw [if_neg h, if_neg (by omega), fread_append, Outcome.ok_bind]
    dsimp only
    rw [if_neg (by have := hz.bound b.raw; omega)]

theorem zBlocks_old (hz : z.Lawful) {d : Nat} : ∀ {bs : List OldBlock}, (∀ b ∈ bs, b.Valid d ∧ 8 ≤ b.raw.length) → ∀ (rest : List Byte),
    zBlocks z d bs.length (bs.flatMap OldBlock.bytes ++ rest) = .ok (bs.flatMap fun b => b.packed (z.compress b.raw)) := by
  intro bs
  induction bs with
  | nil => intro _ _; rfl
  | cons b bs ih =>
    intro h rest
    have hb := h b (by simp)
    rw [List.length_cons, zBlocks, List.flatMap_cons, List.append_assoc, zBlock_old z hz hb.1, if_neg (by omega), Outcome.ok_bind]
    dsimp only
    rw [ih (fun b' h' => h b' (by simp [h'])), Outcome.ok_bind, List.flatMap_cons]

/-- **C74.** Files of the layout without boundary conditions, with blocks of at least eight bytes, are compressed: the text is copied and every block
becomes its limits, the number of bytes, the number of compressed bytes, and bytes from which zlib recovers the data. -/
theorem mmsp2z_old (hz : z.Lawful) {nm : List Byte} (hnm : newline ∉ nm) {d : Nat} (hd : 1 ≤ d ∧ d ≤ 3) {fields : Int} (hf : IsInt fields)
    {g0 g1 : Nat → Int} (hint : ∀ j, j < d → IsInt (g0 j) ∧ IsInt (g1 j)) (dx : Nat → D) {bs : List OldBlock} (hn : IsInt bs.length)
    (hb : ∀ b ∈ bs, b.Valid d ∧ 8 ≤ b.raw.length) :
    ∃ disk : OldBlock → List Byte, (∀ b, z.uncompress b.raw.length (disk b) = .ok b.raw) ∧
      mmsp2z z dec (header dec nm d fields g0 g1 dx ++ (intBytes bs.length ++ bs.flatMap OldBlock.bytes)) =
        .ok (header dec nm d fields g0 g1 (fun j => dec.round6 (dx j)) ++ (intBytes bs.length ++ bs.flatMap fun b => b.packed (disk b))) := by
  refine ⟨fun b => z.compress b.raw, fun b => hz.inverse _ _ le_rfl, ?_⟩
  have := zBlocks_old z hz hb []
  rw [List.append_nil] at this
  rw [mmsp2z_header z dec hnm hd hf hint dx hn, this, Outcome.ok_bind]

/-- **C74.** … but one block of less than eight bytes ends the program with a failed assertion. -/
theorem mmsp2z_small (hz : z.Lawful) {nm : List Byte} (hnm : newline ∉ nm) {d : Nat} (hd : 1 ≤ d ∧ d ≤ 3) {fields : Int} (hf : IsInt fields)
    {g0 g1 : Nat → Int} (hint : ∀ j, j < d → IsInt (g0 j) ∧ IsInt (g1 j)) (dx : Nat → D) {pre post : List OldBlock} {b : OldBlock}
    (hn : IsInt (pre ++ b :: post).length) (hpre : ∀ b ∈ pre, b.Valid d ∧ 8 ≤ b.raw.length) (hb : b.Valid d) (hs : b.raw.length < 8) :
    mmsp2z z dec (header dec nm d fields g0 g1 dx ++ (intBytes (pre ++ b :: post).length ++ (pre ++ b :: post).flatMap OldBlock.bytes)) = .abort 134 := by
  rw [mmsp2z_header z dec hnm hd hf hint dx hn]
  have : ∀ l : List OldBlock, (∀ b ∈ l, b.Valid d ∧ 8 ≤ b.raw.length) →
      zBlocks z d (l ++ b :: post).length ((l ++ b :: post).flatMap OldBlock.bytes) = .abort 134 := by
    intro l
    induction l with
    | nil =>
      intro _
      rw [List.nil_append, List.length_cons, zBlocks, List.flatMap_cons, zBlock_old z hz hb, if_pos hs, Outcome.abort_bind]
    | cons c l ih =>
      intro h
      have hc := h c (by simp)
      rw [List.cons_append, List.length_cons, zBlocks, List.flatMap_cons, zBlock_old z hz hc.1, if_neg (by omega), Outcome.ok_bind]
      dsimp only
      rw [ih (fun b' h' => h b' (by simp [h'])), Outcome.abort_bind]
  rw [this pre hpre, Outcome.abort_bind]

/-- What the library writes as boundary conditions of the first axis, read as a block size. -/
theorem size_of_codes (a b : BC) (rest : List Byte) :
    ∃ n, freadULong (intBytes a.code ++ (intBytes b.code ++ rest)) = .ok (n, rest) ∧ (b = .mirror → n < 8) ∧ (b ≠ .mirror → 2 ^ 32 ≤ n) := by
  refine ⟨ofLe (intBytes a.code ++ intBytes b.code), ?_, ?_, ?_⟩
  · unfold freadULong
    rw [← List.append_assoc, fread_append' (by rw [List.length_append, intBytes_length, intBytes_length])]
    rfl
  · intro h; subst h; cases a <;> decide
  · cases a <;> cases b <;> decide

variable {T : Type} {c : Cell T} {comp : Option Zlib}

/-- **C74.** No file that `output` writes can be compressed, with or without compression of its own, from any number of processes: the tool takes the
boundary conditions of the first axis of the first block for the size of the block. -/
theorem mmsp2z_output (hc : RoundTrips c) (hz : FileIO.Lawful comp) {nm : List Byte} (hnm : newline ∉ nm) {d : Nat} (hd : 1 ≤ d ∧ d ≤ 3) {fields : Int}
    (hf : IsInt fields) {g0 g1 : Nat → Int} (hint : ∀ j, j < d → IsInt (g0 j) ∧ IsInt (g1 j)) (dx : Nat → D) {w : Reader T} {ws : List (Reader T)}
    (hn : IsInt (w :: ws).length) (hw : Writable c d w) {file : List Byte}
    (hfile : outputBytes comp c dec nm d fields g0 g1 dx (w :: ws) = .ok file) (hlen : file.length ≤ 2 ^ 32) :
    mmsp2z z dec file = if w.shape.b1 0 = .mirror then .abort 134 else .ub := by
  obtain ⟨raw, disk, -, -, -, -, hwb⟩ := writeBuffer_eq hc hz hw
  unfold outputBytes dataSection at hfile
  rw [writeAll, hwb, Outcome.ok_bind] at hfile
  cases hr : writeAll comp c ws with
  | ub => rw [hr] at hfile; cases hfile
  | abort k => rw [hr] at hfile; cases hfile
  | ok bs =>
    rw [hr] at hfile
    simp only [Outcome.ok_bind] at hfile
    have hfile := Outcome.ok.inj hfile
    obtain ⟨tail, htail⟩ : ∃ tail, blockHeader w.shape ++ ulongBytes raw.length ++ ulongBytes disk.length ++ disk ++ bs =
        ((List.range d).flatMap fun j => intBytes (w.shape.x0 j) ++ intBytes (w.shape.x1 j)) ++
          (intBytes (w.shape.b0 0).code ++ (intBytes (w.shape.b1 0).code ++ tail)) := by
      unfold blockHeader
      rw [hw.dim]
      obtain ⟨k, rfl⟩ : ∃ k, d = k + 1 := ⟨d - 1, by omega⟩
      rw [List.range_succ_eq_map (n := k)]
      refine ⟨((List.range k).map Nat.succ).flatMap (fun j => intBytes (w.shape.b0 j).code ++ intBytes (w.shape.b1 j).code) ++
        ulongBytes raw.length ++ ulongBytes disk.length ++ disk ++ bs, ?_⟩
      simp only [List.flatMap_cons, List.append_assoc]
    rw [htail] at hfile
    subst hfile
    rw [mmsp2z_header z dec hnm hd hf hint dx hn, List.length_cons, zBlocks]
    unfold zBlock
    rw [readPairs_range hw.ints, Outcome.ok_bind]
    obtain ⟨n, h1, h2, h3⟩ := size_of_codes (w.shape.b0 0) (w.shape.b1 0) tail
    dsimp only
    rw [h1, Outcome.ok_bind]
    dsimp only
    by_cases hm : w.shape.b1 0 = .mirror
    · have := h2 hm
      rw [if_pos (by omega), if_pos hm]; rfl
    · rw [if_neg hm]
      have h3 := h3 hm
      rw [if_neg (by omega)]
      have : ¬ n ≤ tail.length := by
        simp only [List.length_append] at hlen
        rw [intBytes_length] at hlen
        omega
      unfold fread
      rw [if_neg this]; rfl

end Z

/-! ## Examples -/

/-- A grid that does not begin at the origin, from a serial program, to voxels and back. -/
example (data : Int → CInt) (fs : Files) (junk : Int → CInt) :
    ∃ file, outputBytes none (primCell intCodec) wholeDecimal intName 3 1 (fun j => j - 1) (fun j => 2 * j + 1) (fun _ => ⟨2, by decide⟩)
        [⟨serialShape 3 (fun j => j - 1) (fun j => 2 * j + 1) (fun _ => .mirror) (fun _ => .neumann), data⟩] = .ok file ∧ (fs (ascii "a.MC") = some file →
      ∃ fs1 file', mc2vox none (fun _ => ⟨0, by decide⟩) wholeDecimal ⟨1, by decide⟩ fs (ascii "a.MC") none = (fs1, .ok ()) ∧
        vox2mc none wholeDecimal ⟨1, by decide⟩ junk fs1 (ascii "a.PF") (some (ascii "b")) = (Function.update fs1 (ascii "b") (some file'), .ok ())) := by
  obtain ⟨file, h1, h2⟩ := voxel_roundTrip (comp := none) (fresh := fun _ => ⟨0, by decide⟩) (dec := wholeDecimal) (dx0 := ⟨1, by decide⟩) (by rintro z ⟨⟩)
    (fields := 1) ⟨by decide, by decide⟩ (g0 := fun j => j - 1) (g1 := fun j => 2 * j + 1) (fun j _ => by omega)
    (fun j hj => ⟨⟨by omega, by omega⟩, ⟨by omega, by omega⟩, ⟨by omega, by omega⟩⟩) (fun _ => ⟨2, by decide⟩)
    (serial_run (c := primCell intCodec) (fun j _ => by omega) (fun _ => .mirror) (fun _ => .neumann) (data := data) (fun _ _ _ => trivial) (by
      intro n hn
      have h := prim_size intCodec (g := serialShape 3 (fun j => j - 1) (fun j => 2 * j + 1) (fun _ => .mirror) (fun _ => .neumann))
        ⟨show 0 < 3 by decide, fun j _ => show (j : Int) - 1 < 2 * j + 1 by omega, le_refl 0⟩ data
      obtain rfl := Outcome.ok.inj (h.symm.trans hn)
      have e : sites (serialShape 3 (fun j => j - 1) (fun j => 2 * j + 1) (fun _ => .mirror) (fun _ => .neumann)) = 24 := by decide
      rw [e]; decide))
    (by rintro w _ z raw ⟨⟩) (by rintro _ z raw ⟨⟩) (by decide) ⟨1, by decide⟩ junk (fs := fs) (infile := ascii "a.MC") none (some (ascii "b")) (by decide)
  refine ⟨file, h1, fun h => ?_⟩
  obtain ⟨fs1, file', e1, e2, _⟩ := h2 h
  exact ⟨fs1, file', e1, e2⟩

/-- `MC2vox grains.PF` on a grid of `int`. -/
example (rest : List Byte) (fs : Files) (hfs : fs (ascii "grains.PF") = some (intName ++ newline :: (intDec 3 ++ newline :: rest))) :
    mc2vox none (fun _ => ⟨0, by decide⟩) wholeDecimal ⟨1, by decide⟩ fs (ascii "grains.PF") none =
      (Function.update fs (ascii "grains.PF") (some []), .abort 134) := by
  refine mc2vox_destroys hfs ?_ (default_name (stem := ascii "grains"))
  unfold accepts
  rw [getline_append (by decide)]
  have e := extractInt_intDec (n := 3) ⟨by decide, by decide⟩ (ws := []) (by simp) (b := newline) (by decide) rest
  simp only [List.nil_append] at e
  simp only [e]
  decide

/-- A run that ends. -/
def succeeds {α : Type} : Outcome α → Bool
  | .ok _ => true
  | _ => false

theorem exists_of_succeeds {α : Type} {o : Outcome α} (h : succeeds o = true) : ∃ a, o = .ok a := by
  cases o with
  | ok a => exact ⟨a, rfl⟩
  | ub => cases h
  | abort => cases h

/-- A `2 × 1 × 2` grid … -/
def slab : Shape := ⟨3, fun _ => 0, side (2, 1, 2), fun _ => .periodic, fun _ => .periodic, 0⟩

/-- … with three values. -/
def three : List CInt := [⟨4, by decide⟩, ⟨-7, by decide⟩, ⟨4, by decide⟩]

example (fs : Files) (hfs : fs (ascii "v") = some (voxText slab three)) :
    ∃ file, vox2mc none wholeDecimal ⟨1, by decide⟩ (fun _ => ⟨99, by decide⟩) fs (ascii "v") (some (ascii "w")) = (Function.update fs (ascii "w") (some file), .ok ()) := by
  obtain ⟨file, h⟩ := exists_of_succeeds (o := outputBytes none (primCell intCodec) wholeDecimal intName 3 1 (fun _ => 0) (movedShape slab.x0 slab.x1).x1
    (fun _ => ⟨1, by decide⟩) [⟨movedShape slab.x0 slab.x1, fun i => three.getD i.toNat ⟨99, by decide⟩⟩]) (by decide +kernel)
  have hx : IsInt (slab.x1 0 - slab.x0 0) := ⟨by decide, by decide⟩
  have hy : IsInt (slab.x1 1 - slab.x0 1) := ⟨by decide, by decide⟩
  have hz : IsInt (slab.x1 2 - slab.x0 2) := ⟨by decide, by decide⟩
  have hv : ((three.length + 1 : Nat) : Int) = (slab.x1 0 - slab.x0 0) * (slab.x1 1 - slab.x0 1) * (slab.x1 2 - slab.x0 2) := by decide
  have := short_file (comp := none) (dec := wholeDecimal) (g := slab) (vs := three) (k := 1) hx hy hz hv ⟨1, by decide⟩ (fun _ => ⟨99, by decide⟩) hfs
    (some (ascii "w")) (file := file)
  exact ⟨file, this h⟩

/-- A file of the older layout. -/
example : ∃ disk : List Byte, growZ.uncompress 9 disk = .ok [1, 2, 3, 4, 5, 6, 7, 8, 9] ∧
    mmsp2z growZ wholeDecimal (header wholeDecimal (gridName (ascii "char")) 1 1 (fun _ => -3) (fun _ => 6) (fun _ => ⟨2, by decide⟩) ++
      (intBytes 1 ++ OldBlock.bytes ⟨[(-3, 6)], [1, 2, 3, 4, 5, 6, 7, 8, 9]⟩)) =
      .ok (header wholeDecimal (gridName (ascii "char")) 1 1 (fun _ => -3) (fun _ => 6) (fun _ => ⟨2, by decide⟩) ++
        (intBytes 1 ++ OldBlock.packed ⟨[(-3, 6)], [1, 2, 3, 4, 5, 6, 7, 8, 9]⟩ disk)) := by
  obtain ⟨disk, h1, h2⟩ := mmsp2z_old growZ wholeDecimal growZ_lawful (nm := gridName (ascii "char")) (by decide) (d := 1) (by decide) (fields := 1)
    ⟨by decide, by decide⟩ (g0 := fun _ => -3) (g1 := fun _ => 6) (fun _ _ => ⟨⟨by decide, by decide⟩, ⟨by decide, by decide⟩⟩) (fun _ => ⟨2, by decide⟩)
    (bs := [⟨[(-3, 6)], [1, 2, 3, 4, 5, 6, 7, 8, 9]⟩]) ⟨by decide, by decide⟩ (by
      intro b hb
      obtain rfl := List.mem_singleton.1 hb
      exact ⟨⟨rfl, by intro p hp; obtain rfl := List.mem_singleton.1 hp; exact ⟨⟨by decide, by decide⟩, ⟨by decide, by decide⟩⟩, by decide⟩, by decide⟩)
  simp only [List.flatMap_cons, List.flatMap_nil, List.append_nil] at h2
  exact ⟨disk _, h1 ⟨[(-3, 6)], [1, 2, 3, 4, 5, 6, 7, 8, 9]⟩, h2⟩

/-- A file that the library writes. -/
example : ∃ file,
    outputBytes (some growZ) (primCell byteCodec) wholeDecimal (gridName (ascii "char")) 1 1 (fun _ => -3) (fun _ => 6) (fun _ => ⟨2, by decide⟩)
      [⟨serialShape 1 (fun _ => -3) (fun _ => 6) (fun _ => .periodic) (fun _ => .periodic), fun _ => 7⟩] = .ok file ∧ mmsp2z growZ wholeDecimal file = .ub := by
  have e : bufferSize (primCell byteCodec) (serialShape 1 (fun _ => -3) (fun _ => 6) (fun _ => .periodic) (fun _ => .periodic)) 1
    (fun _ => -3) (fun _ => 6) (fun _ => 7) = .ok 9 := rfl
  obtain ⟨file, h⟩ := exists_of_succeeds (o := outputBytes (some growZ) (primCell byteCodec) wholeDecimal (gridName (ascii "char")) 1 1 (fun _ => -3) (fun _ => 6)
    (fun _ => ⟨2, by decide⟩) [⟨serialShape 1 (fun _ => -3) (fun _ => 6) (fun _ => .periodic) (fun _ => .periodic), fun _ => 7⟩]) (by decide +kernel)
  have hlen : file.length ≤ 2 ^ 32 := by
    have : ((outputBytes (some growZ) (primCell byteCodec) wholeDecimal (gridName (ascii "char")) 1 1 (fun _ => -3) (fun _ => 6)
      (fun _ => ⟨2, by decide⟩) [⟨serialShape 1 (fun _ => -3) (fun _ => 6) (fun _ => .periodic) (fun _ => .periodic), fun _ => 7⟩]).bind fun f =>
        .ok (decide (f.length ≤ 2 ^ 32))) = .ok true := by decide +kernel
    rw [h] at this
    exact of_decide_eq_true (Outcome.ok.inj this)
  refine ⟨file, h, (mmsp2z_output growZ wholeDecimal (c := primCell byteCodec) (comp := some growZ) (primCell_roundTrips byteCodec)
    (by rintro z ⟨⟩; exact growZ_lawful)
    (nm := gridName (ascii "char")) (by decide) (d := 1) (by decide) (fields := 1) ⟨by decide, by decide⟩ (g0 := fun _ => -3) (g1 := fun _ => 6)
    (fun _ _ => ⟨⟨by decide, by decide⟩, ⟨by decide, by decide⟩⟩) (fun _ => ⟨2, by decide⟩)
    (w := ⟨serialShape 1 (fun _ => -3) (fun _ => 6) (fun _ => .periodic) (fun _ => .periodic), fun _ => 7⟩) (ws := []) ⟨by decide, by decide⟩
    ⟨rfl, fun _ _ => ⟨show IsInt (-3) from ⟨by decide, by decide⟩, show IsInt 6 from ⟨by decide, by decide⟩⟩, by decide, by decide, fun _ _ _ => trivial, fun n hn => by
      have : 9 = n := Outcome.ok.inj (e.symm.trans hn)
      omega⟩ h hlen).trans (if_neg (by decide))⟩

end MMSP.Voxel
