import Verif.Driver
import Verif.FileHeaderProps
import Mathlib.Logic.Function.Iterate
import Mathlib.Tactic.Ring
import Mathlib.Tactic.Linarith
/-!
# Properties of the main program
-/

namespace MMSP.Driver

open MMSP.FileIO

/-! ## File names -/

theorem natDec_length_le {n m : Nat} (h : n ≤ m) : (natDec n).length ≤ (natDec m).length := by
  induction m using Nat.strongRecOn generalizing n with
  | ind m ih =>
    rw [natDec.eq_def n, natDec.eq_def m]
    split_ifs with h1 h2
    · simp
    · simp
    · omega
    · simp only [List.length_append, List.length_cons, List.length_nil]
      have := ih (m / 10) (by omega) (Nat.div_le_div_right h : n / 10 ≤ m / 10)
      omega

theorem intDec_nonneg {k : Int} (h : 0 ≤ k) : intDec k = natDec k.toNat := by
  rw [intDec, if_neg (by omega)]; congr 1; omega

theorem padName_eq {b s : List Byte} {length : Nat} {k : Int} : ∀ {fuel j : Nat},
    length ≤ b.length + j + (intDec k).length + s.length + fuel →
    padName b s length k fuel j =
      b ++ List.replicate (max j (length - (b.length + (intDec k).length + s.length))) zero ++ intDec k ++ s := by
  intro fuel
  induction fuel with
  | zero =>
    intro j h
    rw [padName, Nat.max_eq_left (by omega)]
  | succ fuel ih =>
    intro j h
    rw [padName]
    split_ifs with hl
    · rw [ih (by omega)]
      simp only [List.length_append, List.length_replicate] at hl
      rw [Nat.max_eq_right (by omega), Nat.max_eq_right (by omega)]
    · simp only [List.length_append, List.length_replicate] at hl
      rw [Nat.max_eq_left (by omega)]

/-- **C30.** The file written after step `k` is named by the base, the step number filled up with zeros to the
width of the total number of steps, and the suffix. -/
theorem fileName_eq {outfile : List Byte} {steps k : Int} {nm : List Byte} (h : fileName outfile steps k = .ok nm) :
    nm = base outfile ++ (List.replicate ((intDec steps).length - (intDec k).length) zero ++ intDec k) ++ suffix outfile := by
  rw [fileName] at h
  split_ifs at h
  cases h
  rw [padName_eq (by omega), Nat.zero_max]
  rw [show (base outfile).length + (suffix outfile).length + (intDec steps).length -
    ((base outfile).length + (intDec k).length + (suffix outfile).length) = (intDec steps).length - (intDec k).length by omega]
  simp

/-- **C30.** Names of one run have equal length, as long as the step number has no more digits than the total. -/
theorem fileName_length {outfile : List Byte} {steps k : Int} {nm : List Byte} (hk : 0 ≤ k) (hks : k ≤ steps)
    (h : fileName outfile steps k = .ok nm) :
    nm.length = (base outfile).length + (intDec steps).length + (suffix outfile).length := by
  have := natDec_length_le (show k.toNat ≤ steps.toNat by omega)
  rw [fileName_eq h, intDec_nonneg hk, intDec_nonneg (by omega)]
  simp only [List.length_append, List.length_replicate]
  omega

/-- Byte-wise dictionary order. -/
abbrev Before : List Byte → List Byte → Prop := List.Lex fun a b => a.toNat < b.toNat

theorem Before.append_left {a b : List Byte} (h : Before a b) (l : List Byte) : Before (l ++ a) (l ++ b) := by
  induction l with
  | nil => exact h
  | cons x l ih => exact List.Lex.cons ih

theorem Before.append_right {a b : List Byte} (h : Before a b) (hl : a.length = b.length) (r t : List Byte) :
    Before (a ++ r) (b ++ t) := by
  induction h with
  | nil => simp at hl
  | cons _ ih => exact List.Lex.cons (ih (by simpa using hl))
  | rel h => exact List.Lex.rel h

theorem digitsVal_cons_aux (ds : List Byte) (a : Nat) :
    ds.foldl (fun a b => 10 * a + (b.toNat - 48)) a = a * 10 ^ ds.length + digitsVal ds := by
  induction ds generalizing a with
  | nil => simp [digitsVal]
  | cons d ds ih =>
    rw [digitsVal, List.foldl_cons, List.foldl_cons, ih, ih (10 * 0 + _)]
    simp only [List.length_cons, Nat.pow_succ]
    ring

theorem digitsVal_cons (d : Byte) (ds : List Byte) : digitsVal (d :: ds) = (d.toNat - 48) * 10 ^ ds.length + digitsVal ds := by
  rw [digitsVal, List.foldl_cons, digitsVal_cons_aux]; simp

theorem digitsVal_lt {ds : List Byte} (h : ∀ b ∈ ds, isDigit b = true) : digitsVal ds < 10 ^ ds.length := by
  induction ds with
  | nil => simp [digitsVal]
  | cons d ds ih =>
    rw [digitsVal_cons]
    have h1 := ih fun b hb => h b (List.mem_cons_of_mem _ hb)
    have h2 := h d (by simp)
    simp only [isDigit, Bool.and_eq_true, decide_eq_true_eq] at h2
    have : (d.toNat - 48) * 10 ^ ds.length ≤ 9 * 10 ^ ds.length := Nat.mul_le_mul_right _ (by omega)
    rw [List.length_cons, Nat.pow_succ]
    omega

/-- Digit strings of equal length are in dictionary order when their values are. -/
theorem before_of_val {a b : List Byte} (ha : ∀ x ∈ a, isDigit x = true) (hb : ∀ x ∈ b, isDigit x = true)
    (hl : a.length = b.length) (hv : digitsVal a < digitsVal b) : Before a b := by
  induction a generalizing b with
  | nil => rcases b with _ | ⟨y, b⟩
           · simp at hv
           · simp at hl
  | cons x a ih =>
    rcases b with _ | ⟨y, b⟩
    · simp at hl
    · have hl' : a.length = b.length := by simpa using hl
      rw [digitsVal_cons, digitsVal_cons, hl'] at hv
      have hx := ha x (by simp)
      have hy := hb y (by simp)
      have h2 := digitsVal_lt (ds := b) fun c hc => hb c (List.mem_cons_of_mem _ hc)
      simp only [isDigit, Bool.and_eq_true, decide_eq_true_eq] at hx hy
      rcases Nat.lt_trichotomy x.toNat y.toNat with hlt | heq | hgt
      · exact List.Lex.rel hlt
      · have : x = y := UInt8.toNat_inj.1 heq
        subst this
        exact List.Lex.cons (ih (fun c hc => ha c (List.mem_cons_of_mem _ hc)) (fun c hc => hb c (List.mem_cons_of_mem _ hc)) hl' (by omega))
      · exfalso
        have : (y.toNat - 48 + 1) * 10 ^ b.length ≤ (x.toNat - 48) * 10 ^ b.length := Nat.mul_le_mul_right _ (by omega)
        rw [Nat.add_mul] at this
        omega

theorem digitsVal_zeros (n : Nat) (ds : List Byte) : digitsVal (List.replicate n zero ++ ds) = digitsVal ds := by
  induction n with
  | zero => simp
  | succ n ih =>
    rw [List.replicate_succ, List.cons_append, digitsVal_cons, ih]
    simp [zero]

theorem zeros_digits {n : Nat} {ds : List Byte} (h : ∀ b ∈ ds, isDigit b = true) :
    ∀ b ∈ List.replicate n zero ++ ds, isDigit b = true := by
  intro b hb
  rcases List.mem_append.1 hb with h1 | h1
  · rw [List.eq_of_mem_replicate h1]; decide
  · exact h b h1

/-- **C30.** The files of one run sort in time order. -/
theorem fileName_order {outfile : List Byte} {steps k l : Int} {nm nm' : List Byte} (hk : 0 ≤ k) (hkl : k < l) (hls : l ≤ steps)
    (h : fileName outfile steps k = .ok nm) (h' : fileName outfile steps l = .ok nm') : Before nm nm' := by
  have h1 := natDec_length_le (show k.toNat ≤ steps.toNat by omega)
  have h2 := natDec_length_le (show l.toNat ≤ steps.toNat by omega)
  rw [fileName_eq h, fileName_eq h', intDec_nonneg hk, intDec_nonneg (show 0 ≤ steps by omega), intDec_nonneg (show 0 ≤ l by omega),
    List.append_assoc (base outfile), List.append_assoc (base outfile)]
  refine Before.append_left (Before.append_right (before_of_val (zeros_digits (natDec_digits _)) (zeros_digits (natDec_digits _)) ?_ ?_) ?_ _ _) _
  · simp only [List.length_append, List.length_replicate]; omega
  · rw [digitsVal_zeros, digitsVal_zeros, digitsVal_natDec, digitsVal_natDec]; omega
  · simp only [List.length_append, List.length_replicate]; omega

/-- A name is made whenever it fits the buffer. -/
theorem fileName_ok {outfile : List Byte} {steps k : Int}
    (h : (base outfile).length + (suffix outfile).length + max (intDec steps).length (intDec k).length < 4096) :
    ∃ nm, fileName outfile steps k = .ok nm := by
  rw [fileName]
  rw [padName_eq (by omega), if_pos]
  · exact ⟨_, rfl⟩
  · simp only [List.length_append, List.length_replicate]; omega

/-! ## Dots in names -/

theorem findIdx?_first {a r : List Byte} (h : dot ∉ a) : (a ++ dot :: r).findIdx? (· == dot) = some a.length := by
  induction a with
  | nil => simp [List.findIdx?_cons]
  | cons x a ih =>
    simp only [List.mem_cons, not_or] at h
    rw [List.cons_append, List.findIdx?_cons, ih h.2]
    have : (x == dot) = false := by simpa using fun e => h.1 e.symm
    simp [this]

theorem findIdx?_none {a : List Byte} (h : dot ∉ a) : a.findIdx? (· == dot) = none := by
  rw [List.findIdx?_eq_none_iff]
  intro x hx
  have : x ≠ dot := fun e => h (e ▸ hx)
  simpa using this

theorem findDot_eq {a r : List Byte} {pos : Nat} (h : dot ∉ a.drop pos) (hp : pos ≤ a.length) :
    findDot (a ++ dot :: r) pos = some a.length := by
  rw [findDot, List.drop_append_of_le_length hp, findIdx?_first h]
  simp; omega

theorem rfindDot_eq {a r : List Byte} {pos : Nat} (h : dot ∉ r.take (pos - a.length)) (hp : a.length ≤ pos) :
    rfindDot (a ++ dot :: r) pos = some a.length := by
  rw [rfindDot]
  have e : (a ++ dot :: r).take (pos + 1) = a ++ dot :: r.take (pos - a.length) := by
    rw [List.take_append, List.take_of_length_le (by omega), show pos + 1 - a.length = (pos - a.length) + 1 by omega, List.take_succ_cons]
  rw [e, List.reverse_append, List.reverse_cons, List.append_assoc, List.singleton_append, findIdx?_first (by simpa using h)]
  simp

theorem firstDot_eq {a r : List Byte} (h : dot ∉ a) : firstDot (a ++ dot :: r) = some a.length :=
  findDot_eq (by simpa using h) (by omega)

theorem lastDot_eq {a r : List Byte} (h : dot ∉ r) : lastDot (a ++ dot :: r) = some a.length :=
  rfindDot_eq (fun hm => h (List.mem_of_mem_take hm)) (by simp)

theorem firstDot_none {a : List Byte} (h : dot ∉ a) : firstDot a = none := by
  rw [firstDot, findDot, List.drop_zero, findIdx?_none h]; rfl

theorem lastDot_none {a : List Byte} (h : dot ∉ a) : lastDot a = none := by
  rw [lastDot, rfindDot]
  rw [findIdx?_none]
  · rfl
  · rw [List.mem_reverse]; exact fun hm => h (List.mem_of_mem_take hm)

theorem digit_ne_dot {b : Byte} (h : isDigit b = true) : b ≠ dot := by
  rintro rfl; revert h; decide

/-- **C30.** Output name without a dot: files `name.<step>`. -/
theorem parse_plain {b : List Byte} (hb : dot ∉ b) :
    base b = b ++ [dot] ∧ suffix b = [] ∧ iterationsStart b = .ok 0 := by
  rw [base, suffix, iterationsStart, firstDot_none hb, lastDot_none hb, upToLast, lastDot_none hb]
  simp

/-- **C30.** Output name with one dot: files `name.<step>.suffix`. -/
theorem parse_one_dot {b s : List Byte} (hb : dot ∉ b) (hs : dot ∉ s) :
    base (b ++ dot :: s) = b ++ [dot] ∧ suffix (b ++ dot :: s) = dot :: s ∧ iterationsStart (b ++ dot :: s) = .ok 0 := by
  have h2 : findDot (b ++ dot :: s) (b.length + 1) = none := by
    rw [findDot]
    have : (b ++ dot :: s).drop (b.length + 1) = s := by
      rw [List.drop_append, List.drop_of_length_le (by omega)]; simp
    rw [this, findIdx?_none hs]; rfl
  rw [base, suffix, iterationsStart, firstDot_eq hb, lastDot_eq hs]
  dsimp only
  rw [h2, upToLast, lastDot_eq hs]
  simp

theorem takeWhile_all {l : List Byte} (h : ∀ b ∈ l, isDigit b = true) : l.takeWhile isDigit = l := by
  induction l with
  | nil => rfl
  | cons x l ih => rw [List.takeWhile_cons_of_pos (h x (by simp)), ih fun b hb => h b (List.mem_cons_of_mem _ hb)]

theorem atoi_digits {ds t : List Byte} (hd : ∀ b ∈ ds, isDigit b = true) (hne : ds ≠ [])
    (ht : ∀ b, t.head? = some b → isDigit b = false) (hv : digitsVal ds < 2 ^ 31) : atoi (ds ++ t) = .ok (digitsVal ds) := by
  obtain ⟨d, ds', rfl⟩ := List.exists_cons_of_ne_nil hne
  have h0 := hd d (by simp)
  simp only [isDigit, Bool.and_eq_true, decide_eq_true_eq] at h0
  have hsp : isSpace d = false := by simp [isSpace]; omega
  have hm : ¬ d = minus := by rintro rfl; revert h0; decide
  have e1 : (d :: ds' ++ t).dropWhile isSpace = d :: ds' ++ t := by rw [List.cons_append, List.dropWhile_cons_of_neg (by simp [hsp])]
  have e2 : splitSign (d :: ds' ++ t) = (false, d :: ds' ++ t) := by
    rw [List.cons_append, splitSign, if_neg hm, if_neg (by omega)]
  have e3 : (d :: ds' ++ t).takeWhile isDigit = d :: ds' := by
    rcases t with _ | ⟨c, t⟩
    · rw [List.append_nil]; exact takeWhile_all hd
    · exact (takeWhile_append_stop hd (ht c rfl) t).1
  rw [atoi, e1, e2]
  dsimp only
  rw [e3]
  simp only [Bool.false_eq_true, if_false]
  rw [if_pos (by omega)]

/-- **C30.** The name of a checkpoint: base without dot, step number, suffix without dot. The base and suffix are found again,
and the numbering continues. -/
theorem parse_checkpoint {b ds s : List Byte} (hb : dot ∉ b) (hs : dot ∉ s) (hd : ∀ x ∈ ds, isDigit x = true) (hne : ds ≠ [])
    (hv : digitsVal ds < 2 ^ 31) :
    base (b ++ dot :: ds ++ dot :: s) = b ++ [dot] ∧ suffix (b ++ dot :: ds ++ dot :: s) = dot :: s ∧
      iterationsStart (b ++ dot :: ds ++ dot :: s) = .ok (digitsVal ds) := by
  have hdd : dot ∉ ds := fun hm => digit_ne_dot (hd _ hm) rfl
  have hl : (b ++ dot :: ds).length = b.length + 1 + ds.length := by simp; omega
  have f1 : firstDot (b ++ dot :: ds ++ dot :: s) = some b.length := by
    rw [List.append_assoc, List.cons_append]; exact firstDot_eq hb
  have l1 : lastDot (b ++ dot :: ds ++ dot :: s) = some (b.length + 1 + ds.length) := by rw [lastDot_eq hs, hl]
  have hdrop : (b ++ dot :: ds).drop (b.length + 1) = ds := by
    rw [List.drop_append, List.drop_of_length_le (by omega)]; simp
  have f2 : findDot (b ++ dot :: ds ++ dot :: s) (b.length + 1) = some (b.length + 1 + ds.length) := by
    rw [findDot_eq (by rw [hdrop]; exact hdd) (by omega), hl]
  have r2 : rfindDot (b ++ dot :: ds ++ dot :: s) (b.length + 1 + ds.length - 1) = some b.length := by
    rw [List.append_assoc, List.cons_append]
    refine rfindDot_eq (fun hm => ?_) (by omega)
    rw [List.take_append_of_le_length (by omega)] at hm
    exact hdd (List.mem_of_mem_take hm)
  have hdrop' : (b ++ dot :: ds ++ dot :: s).drop (b.length + 1) = ds ++ dot :: s := by
    rw [List.drop_append_of_le_length (by omega), hdrop]
  have hsub : substr (b ++ dot :: ds ++ dot :: s) (b.length + 1) (b.length + 1 + ds.length - b.length - 1) = ds := by
    rw [substr, hdrop', List.take_append_of_le_length (by omega), List.take_of_length_le (by omega)]
  refine ⟨?_, ?_, ?_⟩
  · rw [base, f1, l1]
    dsimp only
    rw [f2, r2]
    dsimp only
    rw [hsub, if_pos (List.all_eq_true.2 hd), List.append_assoc, List.take_left']
    rfl
  · rw [suffix, l1, Option.getD_some, List.drop_left' hl]
  · rw [iterationsStart, f1, l1]
    dsimp only
    rw [if_pos (by omega), substr, hdrop']
    rw [List.take_append, List.take_of_length_le (by omega)]
    refine atoi_digits hd hne (fun x hx => ?_) hv
    generalize b.length + 1 + ds.length - 1 - ds.length = n at hx
    rcases n with _ | n
    · simp at hx
    · rw [List.take_succ_cons, List.head?_cons] at hx
      cases hx; decide

/-! ## The time loop -/

variable {G : Type}

/-- The step numbers after which a file is written, and the grids then written: `m` chunks from `start`. -/
def chunks (update : G → Int → G) (p : Params) (start : Int) (g : G) (name : Int → List Byte) (m : Nat) : List (List Byte × G) :=
  (List.range m).map fun c => (name (start + (c + 1 : Nat) * p.increment), (fun g => update g p.increment)^[c + 1] g)

theorem timeLoop_eq (update : G → Int → G) {p : Params} (hinc : 0 < p.increment) {name : Int → List Byte} :
    ∀ (m fuel : Nat) (i : Int) (g : G), m ≤ fuel → p.steps ≤ i + m * p.increment → (0 < m → i + m * p.increment < p.steps + p.increment) →
    (0 < m → p.steps + p.increment ≤ 2 ^ 31) →
    (∀ c : Nat, c < m → fileName p.outfile p.steps (i + (c + 1 : Nat) * p.increment) = .ok (name (i + (c + 1 : Nat) * p.increment))) →
    timeLoop update p fuel i g = .ok (some (chunks update p i g name m)) := by
  intro m
  induction m with
  | zero =>
    intro fuel i g _ h1 _ _ _
    have : ¬ i < p.steps := by simpa using h1
    rcases fuel with _ | fuel <;> rw [timeLoop, if_neg this] <;> rfl
  | succ m ih =>
    intro fuel i g hf h1 h2 h3 h4
    obtain ⟨fuel, rfl⟩ : ∃ f, fuel = f + 1 := ⟨fuel - 1, by omega⟩
    have e : i + ((m + 1 : Nat) : Int) * p.increment = i + p.increment + m * p.increment := by push_cast; ring
    have h2' := h2 (by omega)
    have h3' := h3 (by omega)
    rw [e] at h1 h2'
    have hm : 0 ≤ (m : Int) * p.increment := mul_nonneg (by omega) (by omega)
    have hlt : i < p.steps := by omega
    have hn := h4 0 (by omega)
    have e0 : i + ((0 + 1 : Nat) : Int) * p.increment = i + p.increment := by push_cast; ring
    rw [e0] at hn
    rw [timeLoop, if_pos hlt, if_neg (by omega), hn, Outcome.ok_bind,
      ih fuel (i + p.increment) (update g p.increment) (by omega) h1 (fun _ => h2') (fun _ => h3') (fun c hc => by
        have := h4 (c + 1) (by omega)
        have e1 : i + p.increment + ((c + 1 : Nat) : Int) * p.increment = i + ((c + 1 + 1 : Nat) : Int) * p.increment := by push_cast; ring
        rw [e1]; exact this), Outcome.ok_bind]
    simp only [Option.map_some, Outcome.ok.injEq, Option.some.injEq]
    rw [chunks, chunks, List.range_succ_eq_map, List.map_cons, List.map_map]
    congr 1
    · rw [e0]; rfl
    · apply List.map_congr_left
      intro c _
      have e1 : i + p.increment + ((c + 1 : Nat) : Int) * p.increment = i + ((c + 1 + 1 : Nat) : Int) * p.increment := by push_cast; ring
      simp only [Function.comp, Nat.succ_eq_add_one]
      rw [e1, Function.iterate_succ_apply (fun g => update g p.increment) (c + 1)]

/-- Number of chunks: the least number that reaches `steps`. -/
def count (p : Params) (start : Int) : Nat := ((p.steps - start + p.increment - 1) / p.increment).toNat

theorem count_spec {p : Params} {start : Int} (hinc : 0 < p.increment) (h : start < p.steps) :
    0 < count p start ∧ p.steps ≤ start + count p start * p.increment ∧ start + count p start * p.increment < p.steps + p.increment := by
  have h1 := Int.mul_ediv_add_emod (p.steps - start + p.increment - 1) p.increment
  have h2 := Int.emod_nonneg (p.steps - start + p.increment - 1) (show p.increment ≠ 0 by omega)
  have h3 := Int.emod_lt_of_pos (p.steps - start + p.increment - 1) hinc
  have h4 : 1 ≤ (p.steps - start + p.increment - 1) / p.increment := by
    rw [Int.le_ediv_iff_mul_le hinc]; omega
  rw [count]
  generalize (p.steps - start + p.increment - 1) / p.increment = q at *
  have : ((q.toNat : Nat) : Int) = q := by omega
  rw [this, mul_comm q]
  refine ⟨by omega, by omega, by omega⟩

/-- Room for all names of a run. -/
def NamesFit (p : Params) : Prop :=
  (base p.outfile).length + (suffix p.outfile).length + (intDec (p.steps + p.increment)).length < 4096

theorem names_exist {p : Params} (hfit : NamesFit p) {k : Int} (h0 : 0 ≤ k) (hs : 0 ≤ p.steps) (hinc : 0 < p.increment) (hk : k < p.steps + p.increment) :
    ∃ nm, fileName p.outfile p.steps k = .ok nm := by
  apply fileName_ok
  rw [NamesFit, intDec_nonneg (by omega)] at hfit
  rw [intDec_nonneg h0, intDec_nonneg hs]
  have h1 := natDec_length_le (show k.toNat ≤ (p.steps + p.increment).toNat by omega)
  have h2 := natDec_length_le (show p.steps.toNat ≤ (p.steps + p.increment).toNat by omega)
  omega

/-- The name of the file for step `k`: base, step number filled up with zeros to the width of `steps`, suffix. -/
def checkpoint (b s : List Byte) (steps k : Int) : List Byte :=
  b ++ (List.replicate ((intDec steps).length - (intDec k).length) zero ++ intDec k) ++ s

/-- **C30.** The time loop ends, calls `update` with `increment` steps `count` times and writes a file after each call. The last
step number is the first `start + c*increment` that is not below `steps` (`count_spec`). -/
theorem timeLoop_spec (update : G → Int → G) {p : Params} {start : Int} (g : G) (hinc : 0 < p.increment) (h0 : 0 ≤ start) (hlt : start < p.steps)
    (hmax : p.steps + p.increment ≤ 2 ^ 31) (hfit : NamesFit p) {fuel : Nat} (hfuel : count p start ≤ fuel) :
    timeLoop update p fuel start g = .ok (some ((List.range (count p start)).map fun c =>
        (checkpoint (base p.outfile) (suffix p.outfile) p.steps (start + (c + 1 : Nat) * p.increment),
          (fun g => update g p.increment)^[c + 1] g))) := by
  obtain ⟨c1, c2, c3⟩ := count_spec hinc hlt
  refine timeLoop_eq update hinc (count p start) fuel start g hfuel c2 (fun _ => c3) (fun _ => hmax) fun c hc => ?_
  have hnn : 0 ≤ ((c + 1 : Nat) : Int) * p.increment := mul_nonneg (by omega) (by omega)
  have hle : ((c + 1 : Nat) : Int) * p.increment ≤ count p start * p.increment := Int.mul_le_mul_of_nonneg_right (by omega) (by omega)
  obtain ⟨nm, h⟩ := names_exist hfit (k := start + ((c + 1 : Nat) : Int) * p.increment) (by omega) (by omega) hinc (by omega)
  rw [h, fileName_eq h]; rfl

/-- **C30.** If `increment` divides the distance, the last file is for exactly `steps`, and the names are all of equal length and in order. -/
theorem exact_steps {p : Params} {start : Int} (hinc : 0 < p.increment) (hlt : start < p.steps) (hdvd : p.increment ∣ p.steps - start) :
    start + count p start * p.increment = p.steps := by
  obtain ⟨c1, c2, c3⟩ := count_spec hinc hlt
  obtain ⟨q, hq⟩ := hdvd
  have : (count p start : Int) = q := by
    have h1 : p.increment * q ≤ p.increment * count p start := by rw [mul_comm _ (count p start : Int)]; omega
    have h2 : p.increment * count p start < p.increment * (q + 1) := by rw [mul_comm _ (count p start : Int), mul_add]; omega
    have h3 := le_of_mul_le_mul_left h1 hinc
    have h4 := lt_of_mul_lt_mul_left h2 hinc.le
    omega
  rw [this, mul_comm]; omega

/-- **C30, negative.** If it does not divide, the run goes beyond the requested number of steps. -/
theorem overshoots {p : Params} {start : Int} (hinc : 0 < p.increment) (hlt : start < p.steps) (hdvd : ¬ p.increment ∣ p.steps - start) :
    p.steps < start + count p start * p.increment := by
  obtain ⟨c1, c2, c3⟩ := count_spec hinc hlt
  rcases lt_or_eq_of_le c2 with h | h
  · exact h
  · exact (hdvd ⟨count p start, by rw [mul_comm]; omega⟩).elim

/-- **C30, negative.** An increment of zero never ends. -/
theorem zero_increment_hangs (update : G → Int → G) {p : Params} {start : Int} (hinc : p.increment = 0) (hlt : start < p.steps)
    (h31 : p.steps < 2 ^ 31) {nm : List Byte} (hnm : fileName p.outfile p.steps start = .ok nm) (fuel : Nat) (g : G) :
    timeLoop update p fuel start g = .ok none := by
  induction fuel generalizing g with
  | zero => rw [timeLoop, if_pos hlt]
  | succ fuel ih =>
    rw [timeLoop, if_pos hlt, hinc, Int.add_zero, if_neg (by omega), hnm, Outcome.ok_bind, ih, Outcome.ok_bind]; rfl

/-! ## Command lines -/

theorem atoi_all {s : List Byte} (h : allDigits s = true) (hv : digitsVal s < 2 ^ 31) : atoi s = .ok (digitsVal s) := by
  have hd : ∀ b ∈ s, isDigit b = true := List.all_eq_true.1 h
  rcases s with _ | ⟨c, s⟩
  · rfl
  · have := atoi_digits (t := []) hd (by simp) (by simp) hv
    rwa [List.append_nil] at this

/-- **C30.** `prog infile steps` -/
theorem params_steps {prog a n : List Byte} (hn : allDigits n = true) (hv : digitsVal n < 2 ^ 31) :
    params [prog, a, n] = .ok ⟨a, digitsVal n, digitsVal n⟩ := by
  simp [params, hn, atoi_all hn hv]

/-- **C30.** `prog infile steps increment` -/
theorem params_steps_increment {prog a n m : List Byte} (hn : allDigits n = true) (hv : digitsVal n < 2 ^ 31) (hm : allDigits m = true)
    (hle : digitsVal m ≤ digitsVal n) : params [prog, a, n, m] = .ok ⟨a, digitsVal n, digitsVal m⟩ := by
  have : ¬ digitsVal n < digitsVal m := by omega
  simp [params, hn, atoi_all hn hv, withIncrement, numberArg, hm, atoi_all hm (by omega), this]

/-- **C30.** `prog infile outfile steps` -/
theorem params_out_steps {prog a o n : List Byte} (ho : allDigits o = false) (hn : allDigits n = true) (hv : digitsVal n < 2 ^ 31) :
    params [prog, a, o, n] = .ok ⟨o, digitsVal n, digitsVal n⟩ := by
  simp [params, ho, numberArg, hn, atoi_all hn hv]

/-- **C30.** `prog infile outfile steps increment` -/
theorem params_out_steps_increment {prog a o n m : List Byte} (ho : allDigits o = false) (hn : allDigits n = true)
    (hv : digitsVal n < 2 ^ 31) (hm : allDigits m = true) (hle : digitsVal m ≤ digitsVal n) :
    params [prog, a, o, n, m] = .ok ⟨o, digitsVal n, digitsVal m⟩ := by
  have : ¬ digitsVal n < digitsVal m := by omega
  simp [params, ho, hn, atoi_all hn hv, withIncrement, numberArg, hm, atoi_all hm (by omega), this]

/-- **C30, negative.** `prog infile outfile`: a string is made of the null pointer. -/
theorem params_two_names {prog a o : List Byte} (ho : allDigits o = false) : params [prog, a, o] = .ub := by
  simp [params, ho]

/-- **C30.** What is rejected: an increment that is no number or exceeds the steps, steps that are no number, too few or too many
arguments. -/
theorem params_rejects {prog a o n m : List Byte} :
    (allDigits n = true → digitsVal n < 2 ^ 31 → allDigits m = false → params [prog, a, n, m] = .abort (-1)) ∧
    (allDigits n = true → digitsVal n < 2 ^ 31 → allDigits m = true → digitsVal m < 2 ^ 31 → digitsVal n < digitsVal m →
      params [prog, a, n, m] = .abort (-1)) ∧
    (allDigits o = false → allDigits n = false → params [prog, a, o, n] = .abort (-1) ∧ params [prog, a, o, n, m] = .abort (-1)) ∧
    (allDigits o = false → allDigits n = true → digitsVal n < 2 ^ 31 → allDigits m = false → params [prog, a, o, n, m] = .abort (-1)) ∧
    (∀ argv, argv.length < 3 ∨ argv.length > 5 → params argv = .abort (-1)) := by
  refine ⟨fun hn hv hm => ?_, fun hn hv hm hw hlt => ?_, fun ho hn => ⟨?_, ?_⟩, fun ho hn hv hm => ?_, fun argv h => ?_⟩
  · simp [params, hn, atoi_all hn hv, withIncrement, numberArg, hm]
  · simp [params, hn, atoi_all hn hv, withIncrement, numberArg, hm, atoi_all hm hw, hlt]
  · simp [params, ho, numberArg, hn]
  · simp [params, ho, numberArg, hn]
  · simp [params, ho, numberArg, hn, atoi_all hn hv, withIncrement, hm]
  · rw [params, if_pos h]

example : ∃ n m : List Byte, allDigits n = true ∧ digitsVal n < 2 ^ 31 ∧ allDigits m = true ∧ digitsVal m < 2 ^ 31 ∧ digitsVal n < digitsVal m :=
  ⟨ascii "10", ascii "11", by decide +kernel⟩

/-- **C30.** An input file that cannot be opened, or whose first line does not begin with `grid`, ends the program with code -1 and
no file written. -/
theorem main_rejects (load : Int → List Byte → Outcome G) (update : G → Int → G) {file : List Byte → Option (List Byte)}
    {argv : List (List Byte)} {p : Params} {fuel : Nat} (hh : argv.getD 1 [] ≠ ascii "--help") (he : argv.getD 1 [] ≠ ascii "--example")
    (hp : params argv = .ok p)
    (hf : file (argv.getD 1 []) = none ∨ ∃ content, file (argv.getD 1 []) = some content ∧ (getline content).1.take 4 ≠ ascii "grid") :
    main load update file fuel argv = .abort (-1) := by
  have hlen : ¬ argv.length < 2 := by
    intro h
    rw [params, if_pos (by omega)] at hp
    cases hp
  rw [main, if_neg hlen, if_neg hh, if_neg he, simulate, hp, Outcome.ok_bind]
  rcases hf with hf | ⟨c, hf, hc⟩
  · rw [hf]
  · rw [hf]
    exact if_pos hc

/-- **C30.** The whole program on a command line that asks for a simulation: the files written. -/
theorem main_spec {load : Int → List Byte → Outcome G} (update : G → Int → G) {file : List Byte → Option (List Byte)} {argv : List (List Byte)}
    {p : Params} {content rest : List Byte} {dim start : Int} {g : G} {fuel : Nat}
    (hh : argv.getD 1 [] ≠ ascii "--help") (he : argv.getD 1 [] ≠ ascii "--example") (hp : params argv = .ok p)
    (hf : file (argv.getD 1 []) = some content) (hgrid : (getline content).1.take 4 = ascii "grid")
    (hdim : extractInt (getline content).2 = some (dim, rest)) (hd : dim = 1 ∨ dim = 2 ∨ dim = 3) (hload : load dim content = .ok g)
    (hstart : iterationsStart p.outfile = .ok start) (hinc : 0 < p.increment) (h0 : 0 ≤ start) (hlt : start < p.steps)
    (hmax : p.steps + p.increment ≤ 2 ^ 31) (hfit : NamesFit p) (hfuel : count p start ≤ fuel) :
    main load update file fuel argv = .ok (.ran ((List.range (count p start)).map fun c =>
      (checkpoint (base p.outfile) (suffix p.outfile) p.steps (start + (c + 1 : Nat) * p.increment),
        (fun g => update g p.increment)^[c + 1] g))) := by
  have hlen : ¬ argv.length < 2 := by
    intro h
    rw [params, if_pos (by omega)] at hp
    cases hp
  rw [main, if_neg hlen, if_neg hh, if_neg he, simulate, hp, Outcome.ok_bind, hf]
  dsimp only
  rw [if_neg (by simpa using hgrid), hdim]
  dsimp only
  rw [hstart, Outcome.ok_bind, if_pos hd, hload, Outcome.ok_bind, timeLoop_spec update g hinc h0 hlt hmax hfit hfuel, Outcome.ok_bind]

/-- **C30.** A file that `output` wrote is recognised, with its dimension (the hypotheses `hgrid` and `hdim` of `main_spec`). -/
theorem header_recognised {D : Type} (dec : Decimal D) {t : List Byte} (ht : newline ∉ t) {d : Nat} (hd : d < 2 ^ 31) (fields : Int)
    (g0 g1 : Nat → Int) (dx : Nat → D) (data : List Byte) :
    (getline (header dec (gridName t) d fields g0 g1 dx ++ data)).1.take 4 = ascii "grid" ∧
    ∃ rest, extractInt (getline (header dec (gridName t) d fields g0 g1 dx ++ data)).2 = some ((d : Int), rest) := by
  have hnl : newline ∉ gridName t := by
    rw [gridName, List.mem_append, not_or]; exact ⟨by decide, ht⟩
  rw [header, List.append_assoc, List.cons_append, getline_append hnl]
  refine ⟨by rw [gridName]; rfl, ?_⟩
  rw [List.append_assoc, List.cons_append]
  exact ⟨_, extractInt_intDec (n := (d : Int)) ⟨by omega, by omega⟩ (ws := []) (by simp) (b := newline) (by decide) _⟩

/-! ## Restarting -/

theorem checkpoint_self (b s : List Byte) (n : Int) : checkpoint b s n n = b ++ intDec n ++ s := by simp [checkpoint]

theorem checkpoint_width {b s : List Byte} {n m k : Int} (h : (intDec n).length = (intDec m).length) :
    checkpoint b s n k = checkpoint b s m k := by rw [checkpoint, checkpoint, h]

/-- **C30.** A run to `n` followed by a restart from its last file to `m` writes the same files with the same contents as one
run to `m`: if the output name has one dot, `increment` divides both distances, and `n` and `m` have as many digits. -/
theorem restart_continues (update : G → Int → G) (g : G) {b s : List Byte} (hb : dot ∉ b) (hs : dot ∉ s) {n m inc : Int}
    (hinc : 0 < inc) (hn : 0 < n) (hnm : n < m) (h1 : inc ∣ n) (h2 : inc ∣ m) (hmax : m + inc ≤ 2 ^ 31)
    (hw : (intDec n).length = (intDec m).length) (hfit : NamesFit ⟨b ++ dot :: s, m, inc⟩) :
    ∃ (files₁ files₂ : List (List Byte × G)) (last : List Byte) (g₁ : G),
      (∀ fuel, n.toNat ≤ fuel → timeLoop update ⟨b ++ dot :: s, n, inc⟩ fuel 0 g = .ok (some (files₁ ++ [(last, g₁)]))) ∧
      iterationsStart last = .ok n ∧
      (∀ fuel, m.toNat ≤ fuel → timeLoop update ⟨last, m, inc⟩ fuel n g₁ = .ok (some files₂)) ∧
      (∀ fuel, m.toNat ≤ fuel → timeLoop update ⟨b ++ dot :: s, m, inc⟩ fuel 0 g = .ok (some (files₁ ++ [(last, g₁)] ++ files₂))) := by
  obtain ⟨q, rfl⟩ := h1
  obtain ⟨t, rfl⟩ := h2
  have hq : 0 < q := by
    by_contra hc
    have := mul_nonpos_of_nonneg_of_nonpos hinc.le (show q ≤ 0 by omega)
    omega
  have hqt : q < t := by
    by_contra hc
    have := mul_le_mul_of_nonneg_left (show t ≤ q by omega) hinc.le
    omega
  obtain ⟨pb, ps, _⟩ := parse_one_dot hb hs
  have hdig : ∀ x ∈ intDec (inc * q), isDigit x = true := by rw [intDec_nonneg hn.le]; exact natDec_digits _
  have hne : intDec (inc * q) ≠ [] := by rw [intDec_nonneg hn.le]; exact natDec_ne _
  have hval : digitsVal (intDec (inc * q)) = (inc * q).toNat := by rw [intDec_nonneg hn.le, digitsVal_natDec]
  obtain ⟨cb, cs, cst⟩ := parse_checkpoint (b := b) (ds := intDec (inc * q)) (s := s) hb hs hdig hne (by rw [hval]; omega)
  have hlast : checkpoint (b ++ [dot]) (dot :: s) (inc * q) (inc * q) = b ++ dot :: intDec (inc * q) ++ dot :: s := by
    rw [checkpoint_self]; simp
  have hcount : ∀ (o : List Byte) (a z : Int), a < z → count ⟨o, inc * z, inc⟩ (inc * a) = (z - a).toNat := by
    intro o a z haz
    have hl : inc * a < inc * z := mul_lt_mul_of_pos_left haz hinc
    have hx := exact_steps (p := ⟨o, inc * z, inc⟩) (start := inc * a) hinc hl ⟨z - a, by dsimp only; ring⟩
    dsimp only at hx
    have : inc * (count ⟨o, inc * z, inc⟩ (inc * a) : Int) = inc * (z - a) := by rw [mul_sub]; linarith
    have := mul_left_cancel₀ hinc.ne' this
    omega
  have hc1 := hcount (b ++ dot :: s) 0 q hq
  have hc2 := hcount (b ++ dot :: intDec (inc * q) ++ dot :: s) q t hqt
  have hc3 := hcount (b ++ dot :: s) 0 t (by omega)
  rw [mul_zero, sub_zero] at hc1 hc3
  have hle1 : q ≤ inc * q := by nlinarith
  have hle2 : t ≤ inc * t := by nlinarith
  have hdl := natDec_length_le (show (inc * q + inc).toNat ≤ (inc * t + inc).toNat by omega)
  have hfit1 : NamesFit ⟨b ++ dot :: s, inc * q, inc⟩ := by
    simp only [NamesFit] at hfit ⊢
    rw [intDec_nonneg (by omega)] at hfit ⊢
    omega
  have hfit2 : NamesFit ⟨b ++ dot :: intDec (inc * q) ++ dot :: s, inc * t, inc⟩ := by
    simp only [NamesFit] at hfit ⊢
    rw [cb, cs]; rw [pb, ps] at hfit; exact hfit
  have r1 := fun fuel hf => timeLoop_spec update (p := ⟨b ++ dot :: s, inc * q, inc⟩) (start := 0) g hinc (le_refl _) hn (by dsimp only; omega) hfit1 (fuel := fuel) hf
  have r2 := fun g' fuel hf => timeLoop_spec update (p := ⟨b ++ dot :: intDec (inc * q) ++ dot :: s, inc * t, inc⟩) (start := inc * q) g' hinc hn.le hnm (by dsimp only; omega) hfit2 (fuel := fuel) hf
  have r3 := fun fuel hf => timeLoop_spec update (p := ⟨b ++ dot :: s, inc * t, inc⟩) (start := 0) g hinc (le_refl _) (by dsimp only; omega) (by dsimp only; omega) hfit (fuel := fuel) hf
  rw [hc1] at r1
  rw [hc2] at r2
  rw [hc3] at r3
  simp only [pb, ps, zero_add] at r1 r3
  simp only [cb, cs] at r2
  obtain ⟨u, hu⟩ : ∃ u : Nat, q.toNat = u + 1 := ⟨q.toNat - 1, by omega⟩
  have huq : ((u + 1 : Nat) : Int) * inc = inc * q := by rw [← hu, mul_comm]; congr 1; omega
  refine ⟨(List.range u).map fun c => (checkpoint (b ++ [dot]) (dot :: s) (inc * q) ((c + 1 : Nat) * inc), (fun g => update g inc)^[c + 1] g),
    _, b ++ dot :: intDec (inc * q) ++ dot :: s, (fun g => update g inc)^[u + 1] g, ?_, ?_, fun fuel hf => r2 _ fuel (by omega), ?_⟩
  · intro fuel hf
    rw [r1 fuel (by omega), hu, List.range_succ, List.map_append]
    simp only [List.map_cons, List.map_nil]
    rw [huq, hlast]
  · rw [cst, hval]; congr 1; omega
  · intro fuel hf
    rw [r3 fuel (by omega), show t.toNat = q.toNat + (t - q).toNat by omega, List.range_add, List.map_append, hu, List.range_succ, List.map_append]
    simp only [List.map_cons, List.map_nil, List.map_map]
    rw [checkpoint_width (k := ((u + 1 : Nat) : Int) * inc) hw.symm, huq, hlast]
    congr 2
    congr 1
    · congr 1
      apply List.map_congr_left
      intro c _
      rw [checkpoint_width hw.symm]
    · apply List.map_congr_left
      intro c _
      simp only [Function.comp]
      congr 1
      · congr 1
        rw [← huq]; push_cast; ring
      · rw [← Function.iterate_add_apply]; congr 1; omega

/-- **C30, negative.** Without a suffix, the checkpoint of step `n` is not recognised: numbering restarts at 0 and the old number
becomes the suffix. -/
theorem plain_restart_forgets {b : List Byte} (hb : dot ∉ b) {n : Int} (hn : 0 ≤ n) :
    iterationsStart (checkpoint (base b) (suffix b) n n) = .ok 0 ∧ suffix (checkpoint (base b) (suffix b) n n) = dot :: intDec n := by
  obtain ⟨h1, h2, _⟩ := parse_plain hb
  have hd : dot ∉ intDec n := by
    rw [intDec_nonneg hn]; exact fun hm => digit_ne_dot (natDec_digits _ _ hm) rfl
  obtain ⟨_, g2, g3⟩ := parse_one_dot hb hd
  rw [checkpoint_self, h1, h2, List.append_nil, List.append_assoc, List.singleton_append]
  exact ⟨g3, g2⟩

/-- **C30, negative.** If something that is no number follows the first dot (`./run.0100.dat`, `run.v2.0100.dat`), numbering
restarts at 0. -/
theorem dotted_restart_forgets {b r : List Byte} {c : Byte} (hb : dot ∉ b)
    (hc : isDigit c = false ∧ isSpace c = false ∧ c ≠ minus ∧ c.toNat ≠ 43) : iterationsStart (b ++ dot :: c :: r) = .ok 0 := by
  have hz : ∀ t : List Byte, atoi (c :: t) = .ok 0 := by
    intro t
    rw [atoi, List.dropWhile_cons_of_neg (by simp [hc.2.1]), splitSign, if_neg hc.2.2.1, if_neg hc.2.2.2]
    dsimp only
    rw [List.takeWhile_cons_of_neg (by simp [hc.1])]
    rfl
  have h0 : atoi [] = .ok 0 := rfl
  rw [iterationsStart, firstDot_eq hb]
  rcases hl : lastDot (b ++ dot :: c :: r) with _ | l
  · rfl
  · dsimp only
    split_ifs
    · rw [substr, List.drop_append, List.drop_of_length_le (by omega), List.nil_append,
        show b.length + 1 - b.length = 1 by omega, List.drop_succ_cons, List.drop_zero]
      rcases l - 1 with _ | k
      · exact h0
      · rw [List.take_succ_cons]; exact hz _
    · rfl

/-! ## Cases -/

example : fileName (ascii "start.dat") 1000 100 = .ok (ascii "start.0100.dat") := by decide +kernel
example : iterationsStart (ascii "start.0100.dat") = .ok 100 := by decide +kernel
example : iterationsStart (ascii "./start.0100.dat") = .ok 0 := by decide +kernel
example : base (ascii "start.0100.dat") = ascii "start." ∧ suffix (ascii "start.0100.dat") = ascii ".dat" := by decide +kernel
example : (params [ascii "p", ascii "start.dat", ascii "1000", ascii "100"]) = .ok ⟨ascii "start.dat", 1000, 100⟩ := by decide +kernel
/-- 30 does not divide 100: four chunks, 120 steps. -/
example : (timeLoop (fun g n => g + n) ⟨ascii "a.dat", 100, 30⟩ 10 0 (0 : Int)) =
    .ok (some [(ascii "a.030.dat", 30), (ascii "a.060.dat", 60), (ascii "a.090.dat", 90), (ascii "a.120.dat", 120)]) := by decide +kernel
/-- The hypotheses of `restart_continues`. -/
example : NamesFit ⟨ascii "run" ++ dot :: ascii "dat", 300, 50⟩ ∧ dot ∉ ascii "run" ∧ dot ∉ ascii "dat" ∧
    (intDec 150).length = (intDec 300).length := by
  unfold NamesFit; decide +kernel

end MMSP.Driver
