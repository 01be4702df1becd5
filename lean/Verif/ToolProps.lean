import Verif.Tool
import Mathlib.Data.List.GetD
/-!
# Property C60: front ends of the export tools
-/

namespace MMSP.Tool

open FileIO

/-- Every tool. -/
def progs : List Prog := [.png, .tsv, .xyz, .vti, .pvd]

theorem mem_progs (t : Prog) : t ∈ progs := by cases t <;> decide

/-- The names of the number types of the library (`include/MMSP.utility.h` 181-216) but `long double`. -/
def numbers : List (List Byte) :=
  ["bool", "char", "unsigned char", "int", "unsigned int", "long", "unsigned long", "short", "unsigned short", "float", "double"].map ascii

/-- The cell classes: plain numbers, `scalar`, `vector`, `sparse`. -/
def classes : List (List Byte) := [[], ascii "scalar:", ascii "vector:", ascii "sparse:"]

/-- What a tool should do with a file of cells of class `c` with numbers `e`: convert it as what it is; plain numbers may be wrapped in `scalar`, which has the same bytes.
The exceptions are stated: `mmsp2xyz` refuses `bool`, and three tools cannot read `scalar` files. -/
def expected (tool : Prog) (c e : List Byte) : Outcome (List Byte) :=
  if tool = .xyz ∧ e = ascii "bool" then .abort (-1)
  else if tool = .vti ∨ tool = .pvd then .ok ((if c = [] then ascii "scalar:" else c) ++ e)
  else if c = ascii "scalar:" then .abort (-2)
  else .ok (c ++ e)

/-- C60: every tool opens every type of grid but those of `long double` as what it is. -/
theorem open_known (tool : Prog) : ∀ e ∈ numbers, ∀ c ∈ classes, open' tool (gridName (c ++ e)) = expected tool c e := by
  have : ∀ t ∈ progs, ∀ e ∈ numbers, ∀ c ∈ classes, open' t (gridName (c ++ e)) = expected t c e := by decide +kernel
  exact this tool (mem_progs tool)

/-- C60: a grid of `long double` is taken for one of `long`: four tools stop with a wrong message, `mmsp2pvd` reads the 16-byte numbers as 8-byte integers. -/
theorem open_long_double (tool : Prog) : ∀ c ∈ classes, open' tool (gridName (c ++ ascii "long double")) =
    if tool = .pvd then .ok ((if c = [] then ascii "scalar:" else c) ++ ascii "long") else .abort (-2) := by
  have : ∀ t ∈ progs, ∀ c ∈ classes, open' t (gridName (c ++ ascii "long double")) =
      if t = .pvd then .ok ((if c = [] then ascii "scalar:" else c) ++ ascii "long") else .abort (-2) := by decide +kernel
  exact this tool (mem_progs tool)

/-- C60: whatever the type line says, a tool other than `mmsp2pvd` that goes on has a grid object of the type in the file, or of `scalar` around it. -/
theorem open_sound {tool : Prog} (ht : tool ≠ .pvd) {t cell : List Byte} (hc : colon ∉ t.take 4) (h : open' tool (gridName t) = .ok cell) :
    cell = t ∨ cell = ascii "scalar:" ++ t := by
  unfold open' at h
  split at h
  · cases h
  · split at h
    · cases h
    · rename_i e _
      dsimp only at h
      split at h
      · cases h
      · rw [checkType_iff hc] at h
        split at h
        · rename_i hok
          rw [Outcome.ok_bind] at h
          cases h
          exact hok
        · cases h

/-- `mmsp2pvd` does not have that property. -/
theorem pvd_unsound : open' .pvd (gridName (ascii "vector:long double")) = .ok (ascii "vector:long") := by decide +kernel

example : colon ∉ (ascii "vector:double").take 4 := by decide
example : open' .tsv (gridName (ascii "vector:double")) = .ok (ascii "vector:double") := by decide +kernel

/-! ## Names -/

/-- Last position of a dot. -/
theorem lastDot_append {a w : List Byte} (hw : dot ∉ w) : lastDot (a ++ dot :: w) = some a.length := by
  unfold lastDot
  rw [List.length_append, List.length_cons, show a.length + (w.length + 1) = (a.length + 1) + w.length by omega, List.range_add, List.filter_append]
  have h1 : (List.map (a.length + 1 + ·) (List.range w.length)).filter (fun i => (a ++ dot :: w)[i]? == some dot) = [] := by
    rw [List.filter_eq_nil_iff]
    intro i hi
    obtain ⟨k, hk, rfl⟩ := List.mem_map.1 hi
    rw [List.getElem?_append_right (by omega), show a.length + 1 + k - a.length = k + 1 by omega, List.getElem?_cons_succ]
    intro h
    exact hw (List.mem_of_getElem? (by simpa using h))
  rw [h1, List.append_nil, List.range_succ, List.filter_append]
  have h2 : [a.length].filter (fun i => (a ++ dot :: w)[i]? == some dot) = [a.length] := by
    rw [List.filter_cons_of_pos]
    · rfl
    · rw [List.getElem?_append_right (le_refl _), Nat.sub_self]
      simp
  rw [h2, List.getLast?_append]
  rfl

theorem lastDot_bound {name : List Byte} {k : Nat} (h : lastDot name = some k) : k < name.length ∧ name[k]? = some dot := by
  unfold lastDot at h
  have hm := List.mem_of_getLast? h
  rw [List.mem_filter, List.mem_range] at hm
  exact ⟨hm.1, by simpa using hm.2⟩

/-- C60: without an output name the output goes to a file of another name, unless the input already has the extension of the output. -/
theorem outName_self_iff {w : List Byte} (hw : dot ∉ w) (hd : ∀ b ∈ w, isDigit b = false) (name : List Byte) :
    outName (dot :: w) name = name ↔ ∃ stem, name = stem ++ dot :: w := by
  constructor
  · intro h
    unfold outName at h
    split at h
    · exact absurd h (by simp)
    · rename_i k hk
      split at h
      · exact absurd h (by simp)
      · exact ⟨_, h.symm⟩
  · rintro ⟨stem, rfl⟩
    unfold outName
    rw [lastDot_append hw]
    dsimp only
    rw [List.drop_left, if_neg, List.take_left]
    rw [List.any_cons]
    have : (w.any isDigit) = false := by
      rw [List.any_eq_false]
      intro b hb
      rw [hd b hb]
      decide
    rw [this]
    decide

/-- C60: the name keeps everything in front of the extension, and has the new extension. -/
theorem outName_spec (w name : List Byte) : ∃ stem, outName (dot :: w) name = stem ++ dot :: w ∧ stem <+: name := by
  unfold outName
  split
  · exact ⟨name, rfl, List.prefix_rfl⟩
  · split
    · exact ⟨name, rfl, List.prefix_rfl⟩
    · exact ⟨_, rfl, List.take_prefix _ _⟩

/-- C60: names that differ only in a numeric extension get different outputs (`mmsp2tsv`, `mmsp2png`, `mmsp2xyz`). -/
theorem outName_numeric {w a u v : List Byte} (hu : dot ∉ u) (hv : dot ∉ v) (du : u.any isDigit = true) (dv : v.any isDigit = true)
    (h : outName (dot :: w) (a ++ dot :: u) = outName (dot :: w) (a ++ dot :: v)) : u = v := by
  unfold outName at h
  rw [lastDot_append hu, lastDot_append hv] at h
  dsimp only at h
  rw [List.drop_left, List.drop_left, if_pos (by rw [List.any_cons, du, Bool.or_true]), if_pos (by rw [List.any_cons, dv, Bool.or_true])] at h
  have := List.append_cancel_right h
  have := List.append_cancel_left this
  simpa using this

/-- C60 (where it fails): for `mmsp2vti` and `mmsp2pvd` they get the same one, so each overwrites the one before (or, with `mmsp2pvd`, is left out because the file exists). -/
theorem stemName_collides {w a u v : List Byte} (hu : dot ∉ u) (hv : dot ∉ v) : stemName (dot :: w) (a ++ dot :: u) = stemName (dot :: w) (a ++ dot :: v) := by
  unfold stemName
  rw [lastDot_append hu, lastDot_append hv]
  dsimp only
  rw [List.take_left, List.take_left]

example : outName (ascii ".tsv") (ascii "grain.0100.dat") = ascii "grain.0100.tsv" ∧ outName (ascii ".tsv") (ascii "grain.0100") = ascii "grain.0100.tsv" ∧
    outName (ascii ".tsv") (ascii "grain") = ascii "grain.tsv" := by decide +kernel
example : stemName (ascii ".vti") (ascii "grain.0100") = ascii "grain.vti" := by decide +kernel

/-! ## The input is not safe -/

/-- C60: with another output name `mmsp2tsv` leaves every file but the output as it was, the input included. -/
theorem tsv_keeps (convert : List Byte → List Byte → Outcome (List Byte)) (fs : Files) {infile outfile f : List Byte} (hf : f ≠ outfile) :
    (runTsv convert fs infile outfile).1 f = fs f := by
  unfold runTsv
  split
  · rfl
  · dsimp only
    split
    · rfl
    · split
      · exact Function.update_of_ne hf _ _
      · split
        · exact Function.update_of_ne hf _ _
        · split
          · dsimp only
            rw [Function.update_of_ne hf, Function.update_of_ne hf]
          all_goals exact Function.update_of_ne hf _ _

/-- C60: and, if the type of the file is one it opens, the output holds what the conversion produced. -/
theorem tsv_converts {convert : List Byte → List Byte → Outcome (List Byte)} {fs : Files} {infile outfile content cell out : List Byte}
    (hne : infile ≠ outfile) (hin : fs infile = some content) (ho : open' .tsv (getline content).1 = .ok cell) (hc : convert cell content = .ok out) :
    (runTsv convert fs infile outfile).2 = .ok () ∧ (runTsv convert fs infile outfile).1 outfile = some out := by
  unfold open' at ho
  split at ho
  · cases ho
  · rename_i hg
    split at ho
    · cases ho
    · rename_i e he
      dsimp only at ho
      rw [if_neg (by rintro ⟨h, _⟩; cases h), if_neg (by decide)] at ho
      cases hck : checkType (gridName (prefixOf .tsv (getline content).1 ++ e)) (getline content).1 with
      | ub => rw [hck] at ho; cases ho
      | abort c => rw [hck] at ho; cases ho
      | ok u =>
        rw [hck, Outcome.ok_bind] at ho
        cases ho
        unfold runTsv
        rw [hin]
        dsimp only
        rw [if_neg (by rintro (h | h); exacts [hg h, by rw [he] at h; cases h]), Function.update_of_ne hne, hin]
        dsimp only
        rw [he]
        dsimp only
        rw [hck, Outcome.ok_bind, hc]
        exact ⟨rfl, Function.update_self _ _ _⟩

/-- C60 (where it fails): if the output is the input, which happens without an output name when the input ends in `.tsv`, the input is emptied before the grid is read, and
the program dies of an uncaught exception. The data is lost. -/
theorem tsv_destroys_input (convert : List Byte → List Byte → Outcome (List Byte)) (fs : Files) {infile content t : List Byte}
    (hin : fs infile = some content) (ht : (getline content).1 = gridName t) (he : element (gridName t) ≠ none) :
    runTsv convert fs infile infile = (Function.update fs infile (some []), .abort 134) := by
  unfold runTsv
  rw [hin]
  dsimp only
  have hg : (gridName t).take 4 = ascii "grid" := by
    unfold gridName
    rw [List.take_append_of_le_length (by decide)]
    rfl
  rw [ht, if_neg (by rintro (h | h); exacts [h hg, he h]), Function.update_self]
  dsimp only
  obtain ⟨e, hee⟩ := Option.ne_none_iff_exists'.1 he
  rw [hee]
  dsimp only
  rw [show getline ([] : List Byte) = ([], []) from rfl, no_colon_throws _ (by decide)]
  rfl

example : element (gridName (ascii "vector:double")) ≠ none := by decide +kernel

/-! ## The collection of `mmsp2pvd` -/

theorem firstFrom_some {p : List Byte → Bool} {args : List (List Byte)} {i k : Nat} (h : firstFrom p args i = some k) :
    i ≤ k ∧ k < args.length ∧ (∀ j, i ≤ j → j < k → p (args.getD j []) = false) ∧ p (args.getD k []) = true := by
  unfold firstFrom at h
  rw [Option.map_eq_some_iff] at h
  obtain ⟨m, hm, rfl⟩ := h
  rw [List.findIdx?_eq_some_iff_getElem] at hm
  obtain ⟨hlt, hp, hall⟩ := hm
  rw [List.length_drop] at hlt
  refine ⟨by omega, by omega, ?_, ?_⟩
  · intro j h1 h2
    have := hall (j - i) (by omega)
    rw [List.getElem_drop] at this
    rw [List.getD_eq_getElem _ _ (by omega)]
    simpa [show i + (j - i) = j by omega] using this
  · rw [List.getElem_drop] at hp
    rw [List.getD_eq_getElem _ _ (by omega)]
    simpa [Nat.add_comm] using hp

/-- C60: in all cases the collection lists exactly the arguments behind `dat_idx`, numbered from 0. -/
theorem entries_eq (exists_ : List Byte → Bool) (args : List (List Byte)) (h : (arguments exists_ args).1 ≠ none ∨ (arguments exists_ args).2 < args.length) :
    ∃ l, entries exists_ args = .ok l ∧ l.map Prod.fst = List.range (args.length - (arguments exists_ args).2) ∧
      l.map Prod.snd = (args.drop (arguments exists_ args).2).map (stemName (ascii ".vti")) := by
  have hb : ∀ i, (arguments exists_ args).1 = some i → i < (arguments exists_ args).2 ∧ (arguments exists_ args).2 ≤ args.length := by
    intro i hi
    unfold arguments at hi ⊢
    split at hi
    · rename_i k hk
      cases hi
      have := firstFrom_some hk
      dsimp only
      omega
    · split at hi
      · rename_i k hk
        cases hi
        have := firstFrom_some hk
        dsimp only
        omega
      · cases hi
  unfold entries
  generalize arguments exists_ args = a at *
  obtain ⟨o, d⟩ := a
  dsimp only at *
  have hd : d ≤ args.length := by
    cases o with
    | none =>
      rcases h with h | h
      · exact absurd rfl h
      · omega
    | some i => exact (hb i rfl).2
  have hne : ¬ (o = none ∧ args.length ≤ d) := by
    rintro ⟨rfl, h2⟩
    rcases h with h | h
    · exact h rfl
    · omega
  have hfil : ((List.range args.length).filter fun i => d ≤ i ∧ o ≠ some i) = List.range' d (args.length - d) := by
    have e : List.range args.length = List.range d ++ List.range' d (args.length - d) := by
      have := List.range'_append (s := 0) (m := d) (n := args.length - d) (step := 1)
      simp only [Nat.one_mul, Nat.zero_add] at this
      rw [List.range_eq_range', List.range_eq_range', this]
      congr 1
      omega
    rw [e, List.filter_append]
    have h1 : (List.range d).filter (fun i => decide (d ≤ i ∧ o ≠ some i)) = [] := by
      rw [List.filter_eq_nil_iff]
      intro i hi
      rw [List.mem_range] at hi
      simp only [decide_eq_true_eq]
      omega
    have h2 : (List.range' d (args.length - d)).filter (fun i => decide (d ≤ i ∧ o ≠ some i)) = List.range' d (args.length - d) := by
      rw [List.filter_eq_self]
      intro i hi
      rw [List.mem_range'_1] at hi
      simp only [decide_eq_true_eq]
      refine ⟨hi.1, fun ho => ?_⟩
      have := (hb i ho).1
      omega
    rw [h1, h2, List.nil_append]
  rw [if_neg hne, hfil]
  refine ⟨_, rfl, ?_, ?_⟩
  · rw [List.map_map]
    apply List.ext_getElem (by simp)
    intro i h1 h2
    simp
  · rw [List.map_map]
    apply List.ext_getElem (by simp)
    intro i h1 h2
    simp only [List.getElem_map, List.getElem_range', Function.comp_apply, List.getElem_drop, Nat.one_mul]
    rw [List.getD_eq_getElem]

/-- The options in front. -/
def IsOption (a : List Byte) : Prop := a = ascii "--mag" ∨ a = ascii "--max" ∨ a.take 8 = ascii "--field="

def IsOutput (a : List Byte) : Prop := a.take 9 = ascii "--output="

theorem options_cons {o : List (List Byte)} (ho : o = [] ∨ ∃ a, o = [a] ∧ IsOption a) {rest : List (List Byte)}
    (hr : ∀ a ∈ rest.head?, ¬ IsOption a) : options (o ++ rest) = o.length := by
  rcases ho with rfl | ⟨a, rfl, ha⟩
  · cases rest with
    | nil => rfl
    | cons b r => exact if_neg (hr b (by simp))
  · exact if_pos ha

theorem findIdx?_append_first {p : List Byte → Bool} {a b : List (List Byte)} {x : List Byte} (ha : ∀ y ∈ a, p y = false) (hx : p x = true) :
    (a ++ x :: b).findIdx? p = some a.length := by
  rw [List.findIdx?_eq_some_iff_getElem]
  refine ⟨by simp, by simpa using hx, ?_⟩
  intro j hj
  rw [List.getElem_append_left hj]
  simp [ha _ (List.getElem_mem hj)]

/-- C60: which files are converted. With an explicit `--output=` the data files *behind* it, in order and numbered from 0; the files in front of it are silently left out. -/
theorem explicit_output (exists_ : List Byte → Bool) {o before after : List (List Byte)} {out : List Byte} (ho : o = [] ∨ ∃ a, o = [a] ∧ IsOption a)
    (hb : ∀ a ∈ before, ¬ IsOption a ∧ ¬ IsOutput a) (hout : IsOutput out) :
    ∃ l, entries exists_ (o ++ (before ++ out :: after)) = .ok l ∧ l.map Prod.fst = List.range after.length ∧
      l.map Prod.snd = after.map (stemName (ascii ".vti")) := by
  have hopt : ¬ IsOption out := by
    have e8 : out.take 8 = (ascii "--output=").take 8 := by
      rw [← hout, List.take_take]
      rfl
    intro h
    rcases h with h | h | h
    · rw [h] at hout; exact absurd hout (by unfold IsOutput; decide)
    · rw [h] at hout; exact absurd hout (by unfold IsOutput; decide)
    · rw [e8] at h; exact absurd h (by decide)
  have h0 : options (o ++ (before ++ out :: after)) = o.length := by
    apply options_cons ho
    intro a ha
    cases before with
    | nil => simp at ha; subst ha; exact hopt
    | cons b r => simp at ha; subst ha; exact (hb _ (by simp)).1
  have ha : arguments exists_ (o ++ (before ++ out :: after)) = (some (before.length + o.length), before.length + o.length + 1) := by
    unfold arguments firstFrom
    rw [h0, List.drop_left, findIdx?_append_first (a := before)]
    · rfl
    · intro y hy
      have := (hb y hy).2
      unfold IsOutput at this
      simpa using this
    · unfold IsOutput at hout
      simpa using hout
  obtain ⟨l, h1, h2, h3⟩ := entries_eq exists_ (o ++ (before ++ out :: after)) (Or.inl (by rw [ha]; simp))
  refine ⟨l, h1, ?_, ?_⟩
  · rw [h2, ha]
    congr 1
    simp only [List.length_append, List.length_cons]
    omega
  · rw [h3, ha]
    congr 1
    have : o ++ (before ++ out :: after) = (o ++ (before ++ [out])) ++ after := by simp
    rw [this, List.drop_left' (by simp; omega)]

/-- C60: without `--output=`, if all files exist, all are converted. -/
theorem no_output {exists_ : List Byte → Bool} {o files : List (List Byte)} (ho : o = [] ∨ ∃ a, o = [a] ∧ IsOption a) (hf : files ≠ [])
    (hb : ∀ a ∈ files, ¬ IsOption a ∧ ¬ IsOutput a ∧ exists_ a = true) :
    ∃ l, entries exists_ (o ++ files) = .ok l ∧ l.map Prod.fst = List.range files.length ∧ l.map Prod.snd = files.map (stemName (ascii ".vti")) := by
  have h0 : options (o ++ files) = o.length := options_cons ho fun a ha => (hb a (List.mem_of_mem_head? ha)).1
  have ha : arguments exists_ (o ++ files) = (none, o.length) := by
    unfold arguments firstFrom
    rw [h0, List.drop_left, List.findIdx?_eq_none_iff.2, Option.map_none]
    · dsimp only
      rw [List.findIdx?_eq_none_iff.2, Option.map_none]
      intro x hx
      rw [(hb x hx).2.2]
      rfl
    · intro x hx
      have := (hb x hx).2.1
      unfold IsOutput at this
      simpa using this
  have hl : 0 < files.length := List.length_pos_iff.2 hf
  obtain ⟨l, h1, h2, h3⟩ := entries_eq exists_ (o ++ files) (Or.inr (by rw [ha, List.length_append]; omega))
  refine ⟨l, h1, ?_, ?_⟩
  · rw [h2, ha, List.length_append]
    congr 1
    omega
  · rw [h3, ha, List.drop_left]

/-- C60 (where it fails): a data file that does not exist (a misspelt name, say) is taken for the output, and it and all files in front of it are left out. -/
theorem missing_file {exists_ : List Byte → Bool} {o before after : List (List Byte)} {bad : List Byte} (ho : o = [] ∨ ∃ a, o = [a] ∧ IsOption a)
    (hb : ∀ a ∈ before ++ bad :: after, ¬ IsOption a ∧ ¬ IsOutput a) (he : ∀ a ∈ before, exists_ a = true) (hbad : exists_ bad = false) :
    ∃ l, entries exists_ (o ++ (before ++ bad :: after)) = .ok l ∧ l.map Prod.snd = after.map (stemName (ascii ".vti")) := by
  have h0 : options (o ++ (before ++ bad :: after)) = o.length := options_cons ho fun a ha => (hb a (List.mem_of_mem_head? ha)).1
  have ha : arguments exists_ (o ++ (before ++ bad :: after)) = (some (before.length + o.length), before.length + o.length + 1) := by
    unfold arguments firstFrom
    rw [h0, List.drop_left, List.findIdx?_eq_none_iff.2, Option.map_none]
    · dsimp only
      rw [findIdx?_append_first (a := before)]
      · rfl
      · intro y hy
        rw [he y hy]
        rfl
      · rw [hbad]
        rfl
    · intro x hx
      have := (hb x hx).2
      unfold IsOutput at this
      simpa using this
  obtain ⟨l, h1, h2, h3⟩ := entries_eq exists_ (o ++ (before ++ bad :: after)) (Or.inl (by rw [ha]; simp))
  refine ⟨l, h1, ?_⟩
  rw [h3, ha]
  congr 1
  have : o ++ (before ++ bad :: after) = (o ++ (before ++ [bad])) ++ after := by simp
  rw [this, List.drop_left' (by simp; omega)]

/-- C60 (where it fails): the order that the usage message asks for, `infile1 infile2 ... --output=outfile`, gives an empty collection. -/
theorem usage_order : entries (fun _ => true) ([ascii "a.dat", ascii "b.dat", ascii "--output=c.pvd"]) = .ok [] := by decide +kernel

/-- C60 (where it fails): an option alone, without a file, dereferences the null pointer behind the arguments. -/
theorem option_alone (exists_ : List Byte → Bool) : entries exists_ [ascii "--mag"] = .ub := by
  unfold entries arguments firstFrom
  have : options [ascii "--mag"] = 1 := by decide +kernel
  rw [this]
  rfl

example : entries (fun _ => true) [ascii "--max", ascii "--output=c.pvd", ascii "a.0.dat", ascii "a.1.dat"] = .ok [(0, ascii "a.0.vti"), (1, ascii "a.1.vti")] := by decide +kernel
example : IsOption (ascii "--field=3") ∧ IsOutput (ascii "--output=c.pvd") ∧ ¬ IsOption (ascii "a.dat") := by unfold IsOption IsOutput; decide +kernel

/-- C60 (where it fails): of a file with several blocks (one per writer of a parallel run) only the last block is in the picture afterwards. -/
theorem last_block_only {B : Type} {picture : B → Outcome (List Byte)} {p : B → List Byte} (hp : ∀ b, picture b = .ok (p b)) (fs : Files) (vti : List Byte) (blocks : List B)
    (b : B) : ∃ fs', writeBlocks picture fs vti (blocks ++ [b]) = .ok fs' ∧ fs' vti = some (p b) ∧ ∀ f, f ≠ vti → fs' f = fs f := by
  have aux : ∀ (bs : List B) (fs : Files), ∃ fs', writeBlocks picture fs vti bs = .ok fs' ∧ ∀ f, f ≠ vti → fs' f = fs f := by
    intro bs
    induction bs with
    | nil => intro fs; exact ⟨fs, rfl, fun _ _ => rfl⟩
    | cons c bs ih =>
      intro fs
      obtain ⟨fs', h1, h2⟩ := ih (Function.update fs vti (some (p c)))
      refine ⟨fs', ?_, fun f hf => by rw [h2 f hf, Function.update_of_ne hf]⟩
      unfold writeBlocks at h1 ⊢
      rw [List.foldlM_cons, hp c]
      exact h1
  obtain ⟨fs', h1, h2⟩ := aux blocks fs
  refine ⟨Function.update fs' vti (some (p b)), ?_, Function.update_self _ _ _, fun f hf => by rw [Function.update_of_ne hf, h2 f hf]⟩
  unfold writeBlocks at h1 ⊢
  rw [List.foldlM_append, h1]
  simp only [Outcome.bind_eq, Outcome.ok_bind, List.foldlM_cons, List.foldlM_nil, hp b, Outcome.pure_eq]

end MMSP.Tool
