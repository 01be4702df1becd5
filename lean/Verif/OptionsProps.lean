import Verif.Options
import Verif.DriverProps
import Mathlib.Tactic.Ring
import Mathlib.Tactic.Linarith
import Mathlib.Data.Rat.Cast.Order
/-!
# Command lines of `mmsp2png` and `mmsp2xyz`: what they mean
-/

namespace MMSP.Options

open FileIO
open Tool (Prog)

variable {F : Type} [DecidableEq F]

/-! ## What the usage messages promise -/

/-- The options of the usage messages. Numbers with a fraction are given as they are typed. -/
inductive Opt
  | mag | normal | invert | zoom | coninv
  | zoomTo (a b : List Byte)
  | slice (axis : Fin 3) (upper : Bool)
  | sliceAt (axis : Fin 3) (upper : Bool) (n : Int)
  | contol (a : List Byte)
  | contour (n : Int) (levels : List (List Byte))
  | field (ns : List Int)
  | exclude (ns : List Int)
  | file (name : List Byte)
deriving DecidableEq

/-- Values between commas. -/
def csv (l : List (List Byte)) : List Byte := [comma].intercalate l

def axisName (axis : Fin 3) (upper : Bool) : Byte :=
  match axis, upper with
  | 0, false => 120 | 1, false => 121 | 2, false => 122
  | 0, true => 88 | 1, true => 89 | 2, true => 90

/-- The value of an option, behind the equals sign. -/
def Opt.value : Opt → List Byte
  | .zoomTo a b => csv [a, b]
  | .slice axis upper => [axisName axis upper]
  | .sliceAt axis upper n => axisName axis upper :: comma :: intDec n
  | .contol a => a
  | .contour n levels => csv (intDec n :: levels)
  | .field ns | .exclude ns => csv (ns.map intDec)
  | _ => []

/-- What is typed. -/
def Opt.render : Opt → List Byte
  | .mag => ascii "--mag"
  | .normal => ascii "--normal"
  | .invert => ascii "--invert"
  | .zoom => ascii "--zoom"
  | .coninv => ascii "--coninv"
  | .file name => name
  | o@(.zoomTo _ _) => ascii "--zoom=" ++ o.value
  | o@(.slice _ _) => ascii "--slice=" ++ o.value
  | o@(.sliceAt _ _ _) => ascii "--slice=" ++ o.value
  | o@(.contol _) => ascii "--contol=" ++ o.value
  | o@(.contour _ _) => ascii "--contour=" ++ o.value
  | o@(.field _) => ascii "--field=" ++ o.value
  | o@(.exclude _) => ascii "--exclude=" ++ o.value

/-- A number as typed: not empty, without a comma. -/
def Text (a : List Byte) : Prop := a ≠ [] ∧ comma ∉ a

instance (a : List Byte) : Decidable (Text a) := inferInstanceAs (Decidable (_ ∧ _))

/-- Properly typed options that the tool has. -/
def Opt.Good (tool : Prog) : Opt → Prop
  | .mag => True
  | .normal => tool = .xyz
  | .invert | .zoom | .coninv | .slice _ _ => tool = .png
  | .zoomTo a b => tool = .png ∧ Text a ∧ Text b
  | .sliceAt _ _ n => tool = .png ∧ IsInt n
  | .contol a => Text a ∧ a.length ≠ 1
  | .contour n levels => IsInt n ∧ n ≠ -1 ∧ ∀ l ∈ levels, Text l
  | .field ns | .exclude ns => ∀ n ∈ ns, IsInt n
  | .file name => name.take 2 ≠ ascii "--"

/-- The last value that `f` finds. -/
def lastOf {β : Type} (f : Opt → Option β) (os : List Opt) (default : β) : β := (os.filterMap f).getLast?.getD default

/-- The number of the last argument with the property, counted from 1; 0 if there is none. -/
def lastIndex (p : Opt → Bool) (os : List Opt) : Nat := (((os.zipIdx 1).filter fun a => p a.1).map Prod.snd).getLast?.getD 0

/-- The rank of the ways to choose fields. -/
def Opt.rank : Opt → Nat
  | .mag => 1
  | .field _ => 2
  | .exclude _ => 3
  | _ => 0

def Opt.isOut (tool : Prog) : Opt → Bool
  | .file name => WrongEndian.finds (ext tool) name
  | _ => false

def Opt.isDat (tool : Prog) : Opt → Bool
  | .file name => !WrongEndian.finds (ext tool) name
  | _ => false

/-- The fields an option lists. -/
def Opt.fields : Opt → Finset Int
  | .field ns | .exclude ns => ns.toFinset
  | _ => ∅

/-- The levels an option lists. -/
def Opt.levels (num : Num F) : Opt → Finset F
  | .contour _ ls => (ls.map num.atof).toFinset
  | _ => ∅

def Opt.tolerance (num : Num F) : Opt → Option F
  | .contol a => some (num.atof a)
  | _ => none

def Opt.axis : Opt → Option Int
  | .slice a _ | .sliceAt a _ _ => some a.val
  | _ => none

def Opt.level : Opt → Option Int
  | .sliceAt _ _ n => some n
  | _ => none

def Opt.zoomed (num : Num F) : Opt → Option (F × F)
  | .zoom => some (num.huge, num.minusHuge)
  | .zoomTo a b => some (num.atof a, num.atof b)
  | _ => none

def Opt.lvl : Opt → Option Int
  | .contour n _ => some n
  | _ => none

/-- What a list of options means: sets are collected, the strongest way to choose fields counts, of everything else the last one counts. -/
def meaning (tool : Prog) (num : Num F) (os : List Opt) : Opts F where
  dat := lastIndex (·.isDat tool) os
  out := lastIndex (·.isOut tool) os
  mode := (os.map Opt.rank).foldr max 0
  normal := os.contains .normal
  invert := os.contains .invert
  coninv := os.contains .coninv
  contol := lastOf (·.tolerance num) os num.tolerance
  sliceaxis := lastOf Opt.axis os (-1)
  slicelevel := lastOf Opt.level os (-1)
  zoomin := (lastOf (·.zoomed num) os (num.zero, num.one)).1
  zoomax := (lastOf (·.zoomed num) os (num.zero, num.one)).2
  lvlfield := lastOf Opt.lvl os (-1)
  fieldset := os.foldr (fun o s => o.fields ∪ s) ∅
  levelset := os.foldr (fun o s => o.levels num ∪ s) ∅

/-! ## Lists of values -/

theorem strtok_last {t : List Byte} (h : Text t) : strtok t = some (t, []) := by
  obtain ⟨hne, hc⟩ := h
  rcases t with _ | ⟨c, t⟩
  · exact absurd rfl hne
  have h0 : ¬ c = comma := fun e => hc (by simp [e])
  have h1 : ∀ b ∈ c :: t, (b != comma) = true := fun b hb => by
    simp only [bne_iff_ne]; rintro rfl; exact hc hb
  rw [strtok, List.dropWhile_cons_of_neg (by simpa using h0)]
  simp only
  have e := List.takeWhile_append_of_pos (l₂ := []) h1
  rw [List.takeWhile_nil, List.append_nil] at e
  have e2 := List.dropWhile_append_of_pos (l₂ := []) h1
  rw [List.dropWhile_nil, List.append_nil] at e2
  rw [e, e2]; rfl

theorem strtok_cons {t : List Byte} (h : Text t) (r : List Byte) : strtok (t ++ comma :: r) = some (t, r) := by
  obtain ⟨hne, hc⟩ := h
  rcases t with _ | ⟨c, t⟩
  · exact absurd rfl hne
  have h0 : ¬ c = comma := fun e => hc (by simp [e])
  have h1 : ∀ b ∈ c :: t, (b != comma) = true := fun b hb => by
    simp only [bne_iff_ne]; rintro rfl; exact hc hb
  rw [strtok, List.cons_append, List.dropWhile_cons_of_neg (by simpa using h0)]
  simp only
  rw [← List.cons_append, List.takeWhile_append_of_pos h1, List.dropWhile_append_of_pos h1]
  simp [List.takeWhile, List.dropWhile]

theorem tokens_nil : tokens [] = [] := by rw [tokens]; simp [strtok]

theorem tokens_some {s t r : List Byte} (h : strtok s = some (t, r)) : tokens s = t :: tokens r := by
  rw [tokens]
  split
  · rename_i e; rw [h] at e; cases e
  · rename_i e; rw [h] at e; cases e; rfl

theorem csv_cons (t : List Byte) (ts : List (List Byte)) (h : ts ≠ []) : csv (t :: ts) = t ++ comma :: csv ts := by
  obtain ⟨u, us, rfl⟩ := List.exists_cons_of_ne_nil h
  simp [csv, List.intercalate, List.intersperse]

theorem tokens_csv : ∀ {ts : List (List Byte)}, (∀ t ∈ ts, Text t) → tokens (csv ts) = ts
  | [], _ => tokens_nil
  | [t], h => by
    rw [show csv [t] = t by simp [csv, List.intercalate], tokens_some (strtok_last (h t (by simp))), tokens_nil]
  | t :: u :: us, h => by
    rw [csv_cons t _ (by simp), tokens_some (strtok_cons (h t (by simp)) _), tokens_csv fun x hx => h x (List.mem_cons_of_mem _ hx)]

/-- After the first value: the rest. -/
theorem strtok_csv {t : List Byte} {ts : List (List Byte)} (h : Text t) (hs : ∀ t ∈ ts, Text t) :
    ∃ r, strtok (csv (t :: ts)) = some (t, r) ∧ tokens r = ts := by
  rcases ts with _ | ⟨u, us⟩
  · exact ⟨[], by rw [show csv [t] = t by simp [csv, List.intercalate], strtok_last h], tokens_nil⟩
  · exact ⟨_, by rw [csv_cons t _ (by simp), strtok_cons h], tokens_csv hs⟩

theorem text_intDec (n : Int) : Text (intDec n) := by
  have hd := natDec_digits n.natAbs
  have hc : comma ∉ natDec n.natAbs := fun h => by have := hd _ h; revert this; decide
  rw [intDec]
  split
  · exact ⟨by simp, by simp only [List.mem_cons, not_or]; exact ⟨by decide, hc⟩⟩
  · exact ⟨natDec_ne _, hc⟩

theorem atoi_intDec {n : Int} (h : IsInt n) : Driver.atoi (intDec n) = .ok n := by
  have hd := natDec_digits n.natAbs
  have hall : Driver.allDigits (natDec n.natAbs) = true := List.all_eq_true.2 hd
  have hb : -2 ^ 31 ≤ n ∧ n < 2 ^ 31 := h
  rw [intDec]
  split
  · rename_i hn
    have e1 : (minus :: natDec n.natAbs).dropWhile isSpace = minus :: natDec n.natAbs :=
      List.dropWhile_cons_of_neg (by decide)
    rw [Driver.atoi, e1, splitSign, if_pos rfl]
    dsimp only
    rw [Driver.takeWhile_all hd, digitsVal_natDec]
    simp only [if_true]
    rw [if_pos (by omega)]
    congr 1; omega
  · rw [Driver.atoi_all hall (by rw [digitsVal_natDec]; omega), digitsVal_natDec]
    congr 1; omega

theorem insertInts_csv {ns : List Int} (h : ∀ n ∈ ns, IsInt n) (s : Finset Int) : insertInts s (csv (ns.map intDec)) = .ok (ns.toFinset ∪ s) := by
  rw [insertInts, tokens_csv (by simp only [List.mem_map]; rintro _ ⟨n, -, rfl⟩; exact text_intDec n)]
  induction ns generalizing s with
  | nil => simp [pure]
  | cons n ns ih =>
    rw [List.map_cons, List.foldlM_cons, atoi_intDec (h n (by simp)), Outcome.ok_bind]
    show (Outcome.ok (insert n s)).bind _ = _
    rw [Outcome.ok_bind, ih (fun m hm => h m (List.mem_cons_of_mem _ hm))]
    congr 1; ext m; simp

theorem insertLevels (num : Num F) (ls : List (List Byte)) (s : Finset F) :
    ls.foldl (fun set t => insert (num.atof t) set) s = (ls.map num.atof).toFinset ∪ s := by
  induction ls generalizing s with
  | nil => simp
  | cons l ls ih => rw [List.foldl_cons, ih]; ext m; simp

/-! ## One option -/

/-- What one option adds. -/
def effect (tool : Prog) (num : Num F) (i : Nat) (o : Opts F) : Opt → Opts F
  | .mag => { o with mode := max 1 o.mode }
  | .normal => { o with normal := true }
  | .invert => { o with invert := true }
  | .coninv => { o with coninv := true }
  | .zoom => { o with zoomin := num.huge, zoomax := num.minusHuge }
  | .zoomTo a b => { o with zoomin := num.atof a, zoomax := num.atof b }
  | .slice a _ => { o with sliceaxis := a.val }
  | .sliceAt a _ n => { o with sliceaxis := a.val, slicelevel := n }
  | .contol a => { o with contol := num.atof a }
  | .contour n ls => { o with lvlfield := n, levelset := (ls.map num.atof).toFinset ∪ o.levelset }
  | .field ns => { o with mode := max 2 o.mode, fieldset := ns.toFinset ∪ o.fieldset }
  | .exclude ns => { o with mode := max 3 o.mode, fieldset := ns.toFinset ∪ o.fieldset }
  | .file name => if WrongEndian.finds (ext tool) name then { o with out := i } else { o with dat := i }

theorem take_pre {p : List Byte} {n : Nat} (h : n ≤ p.length) (v : List Byte) : (p ++ v).take n = p.take n := List.take_append_of_le_length h

theorem charAt_pre {p : List Byte} {n : Nat} (h : n < p.length) (v : List Byte) : charAt (p ++ v) n = charAt p n := by
  rw [charAt, charAt, List.getElem?_append_left h]

theorem substr_pre {p v : List Byte} {n : Nat} (h : v.length ≤ n) : substr (p ++ v) p.length n = .ok v := by
  rw [substr, if_neg (by simp), List.drop_left, List.take_of_length_le h]

theorem ne_pre {p q v : List Byte} {n : Nat} (hn : n ≤ p.length) (h : p.take n ≠ q.take n) : p ++ v ≠ q := fun e => h (by rw [← take_pre hn v, e])

theorem take_two {l p : List Byte} {n : Nat} (hn : 2 ≤ n) (h : l.take 2 ≠ p.take 2) : l.take n ≠ p := fun e => h (by
  rw [← e, List.take_take, Nat.min_eq_left hn])

/-- The limit of 255 characters, and what is needed because `contol` drops the first character of its value. -/
def Opt.Read (num : Num F) (o : Opt) : Prop := o.value.length ≤ 255 ∧ ∀ a, o = .contol a → num.atof (a.drop 1) = num.atof a

theorem axisOf_name (a : Fin 3) (u : Bool) (old : Int) : axisOf (axisName a u) old = a.val := by
  match a, u with
  | 0, false => rfl | 1, false => rfl | 2, false => rfl
  | 0, true => rfl | 1, true => rfl | 2, true => rfl

theorem option_zoom (num : Num F) (o : Opts F) (i : Nat) (v : List Byte) : option .png num o i (ascii "--zoom=" ++ v) = zoom num o (ascii "--zoom=" ++ v) := by
  rw [option, if_neg (ne_pre (n := 6) (by decide) (by decide)), if_neg (fun h => absurd h.1 (by decide)),
    if_neg (fun h => ne_pre (n := 6) (v := v) (by decide) (by decide) h.2), if_pos ⟨rfl, by rw [take_pre (by decide)]; decide⟩]

theorem option_slice (num : Num F) (o : Opts F) (i : Nat) (v : List Byte) : option .png num o i (ascii "--slice=" ++ v) = slice o (ascii "--slice=" ++ v) := by
  rw [option, if_neg (ne_pre (n := 6) (by decide) (by decide)), if_neg (fun h => absurd h.1 (by decide)),
    if_neg (fun h => ne_pre (n := 6) (v := v) (by decide) (by decide) h.2),
    if_neg (fun h => by have h := h.2; rw [take_pre (by decide)] at h; revert h; decide), if_pos ⟨rfl, by rw [take_pre (by decide)]; decide⟩]

theorem option_contol (tool : Prog) (num : Num F) (o : Opts F) (i : Nat) (v : List Byte) :
    option tool num o i (ascii "--contol=" ++ v) = contol num o (ascii "--contol=" ++ v) := by
  have hp : ∀ (n : Nat), n ≤ 9 → (ascii "--contol=" ++ v).take n = (ascii "--contol=").take n := fun n hn => take_pre (by simpa [ascii] using hn) _
  have hne : ∀ q : List Byte, (ascii "--contol=").take 6 ≠ q.take 6 → ascii "--contol=" ++ v ≠ q := fun q hq => ne_pre (by decide) hq
  rw [option, if_neg (hne _ (by decide)), if_neg (fun h => hne _ (by decide) h.2), if_neg (fun h => hne _ (by decide) h.2),
    if_neg (fun h => by rw [hp 6 (by omega)] at h; revert h; cases tool <;> decide), if_neg (fun h => by rw [hp 7 (by omega)] at h; revert h; cases tool <;> decide),
    if_neg (fun h => by rw [hp 8 (by omega)] at h; revert h; cases tool <;> decide), if_pos (by rw [hp 8 (by omega)]; decide)]

/-- The first character behind the equals sign is skipped. -/
theorem contol_skips (num : Num F) (o : Opts F) {c : Byte} {t : List Byte} (hl : t.length ≤ 255) :
    contol num o (ascii "--contol=" ++ c :: t) = (atofToken num t).bind fun a => if strtok a.2 = none then .ok { o with contol := a.1 } else .abort 134 := by
  have es : substr (ascii "--contol=" ++ c :: t) 10 255 = .ok t := by
    rw [substr, if_neg (by rw [List.length_append, show (ascii "--contol=").length = 9 by decide, List.length_cons]; omega)]
    exact congrArg _ (List.take_of_length_le hl)
  rw [contol, if_neg (not_or.2 ⟨by rw [List.length_append, show (ascii "--contol=").length = 9 by decide]; omega, by rw [charAt_pre (by decide)]; decide⟩), es,
    Outcome.ok_bind]

theorem option_contour (tool : Prog) (num : Num F) (o : Opts F) (i : Nat) (v : List Byte) :
    option tool num o i (ascii "--contour=" ++ v) = contour num o (ascii "--contour=" ++ v) := by
  have hp : ∀ (k : Nat), k ≤ 10 → (ascii "--contour=" ++ v).take k = (ascii "--contour=").take k := fun k hk => take_pre (by simpa [ascii] using hk) _
  have hne : ∀ q : List Byte, (ascii "--contour=").take 6 ≠ q.take 6 → ascii "--contour=" ++ v ≠ q := fun q hq => ne_pre (by decide) hq
  rw [option, if_neg (hne _ (by decide)), if_neg (fun h => hne _ (by decide) h.2), if_neg (fun h => hne _ (by decide) h.2),
    if_neg (fun h => by rw [hp 6 (by omega)] at h; revert h; cases tool <;> decide), if_neg (fun h => by rw [hp 7 (by omega)] at h; revert h; cases tool <;> decide),
    if_neg (fun h => by rw [hp 8 (by omega)] at h; revert h; cases tool <;> decide), if_neg (by rw [hp 8 (by omega)]; decide),
    if_pos (by rw [hp 9 (by omega)]; decide)]

theorem option_field (tool : Prog) (num : Num F) (o : Opts F) (i : Nat) (v : List Byte) :
    option tool num o i (ascii "--field=" ++ v) = field o (ascii "--field=" ++ v) := by
  have hp : ∀ (k : Nat), k ≤ 8 → (ascii "--field=" ++ v).take k = (ascii "--field=").take k := fun k hk => take_pre (by simpa [ascii] using hk) _
  have hp9 : ∀ q : List Byte, q.take 8 ≠ (ascii "--field=").take 8 → (ascii "--field=" ++ v).take 9 ≠ q := fun q hq h => by
    apply hq; rw [← h, List.take_take, ← hp 8 (by omega)]; rfl
  have hne : ∀ q : List Byte, (ascii "--field=").take 6 ≠ q.take 6 → ascii "--field=" ++ v ≠ q := fun q hq => ne_pre (by decide) hq
  rw [option, if_neg (hne _ (by decide)), if_neg (fun h => hne _ (by decide) h.2), if_neg (fun h => hne _ (by decide) h.2),
    if_neg (fun h => by rw [hp 6 (by omega)] at h; revert h; cases tool <;> decide), if_neg (fun h => by rw [hp 7 (by omega)] at h; revert h; cases tool <;> decide),
    if_neg (fun h => by rw [hp 8 (by omega)] at h; revert h; cases tool <;> decide), if_neg (by rw [hp 8 (by omega)]; decide),
    if_neg (hp9 _ (by decide)), if_pos (by rw [hp 7 (by omega)]; decide)]

theorem option_render (tool : Prog) (num : Num F) (o : Opts F) (i : Nat) {x : Opt} (hg : x.Good tool) (hr : x.Read num) :
    option tool num o i x.render = .ok (effect tool num i o x) := by
  have hlen := hr.1
  cases x with
  | mag => rw [option]; exact if_pos rfl
  | normal =>
    obtain rfl : tool = .xyz := hg
    rw [option, if_neg (show (Opt.normal.render ≠ _) by decide), if_pos ⟨rfl, rfl⟩]; rfl
  | invert =>
    obtain rfl : tool = .png := hg
    rw [option, if_neg (show (Opt.invert.render ≠ _) by decide), if_neg (by decide), if_pos ⟨rfl, rfl⟩]; rfl
  | zoom =>
    obtain rfl : tool = .png := hg
    rw [option, if_neg (show (Opt.zoom.render ≠ _) by decide), if_neg (by decide), if_neg (by decide), if_pos (by decide), zoom, if_pos (by decide)]; rfl
  | coninv =>
    obtain rfl : tool = .png := hg
    rw [option, if_neg (show (Opt.coninv.render ≠ _) by decide), if_neg (by decide), if_neg (by decide), if_neg (by decide), if_neg (by decide), if_pos (by decide)]; rfl
  | zoomTo a b =>
    obtain ⟨rfl, ha, hb⟩ : tool = .png ∧ Text a ∧ Text b := hg
    have e : (Opt.zoomTo a b).render = ascii "--zoom=" ++ csv [a, b] := rfl
    have hc : csv [a, b] = a ++ comma :: b := by rw [csv_cons _ _ (by simp)]; simp [csv, List.intercalate]
    have es := substr_pre (p := ascii "--zoom=") (v := csv [a, b]) (n := 255) hlen
    rw [show (ascii "--zoom=").length = 7 by decide] at es
    rw [e, option_zoom, zoom, if_neg (not_or.2 ⟨by rw [List.length_append, show (ascii "--zoom=").length = 7 by decide]; omega, by rw [charAt_pre (by decide)]; decide⟩),
      es, Outcome.ok_bind, atofToken, hc, strtok_cons ha]
    simp only [Outcome.ok_bind]
    rw [atofToken, strtok_last hb]
    simp only [Outcome.ok_bind]
    rw [if_pos (by decide)]; rfl
  | slice a u =>
    obtain rfl : tool = .png := hg
    have e : (Opt.slice a u).render = ascii "--slice=" ++ [axisName a u] := rfl
    have e8 : charAt (ascii "--slice=" ++ [axisName a u]) 8 = axisName a u := rfl
    have hl : (ascii "--slice=" ++ [axisName a u]).length = 9 := rfl
    rw [e, option_slice, slice, if_neg (not_or.2 ⟨by rw [hl]; omega, by rw [charAt_pre (by decide)]; decide⟩)]
    simp only [e8, axisOf_name, hl]
    rw [if_neg (by omega), if_neg (by omega)]; rfl
  | sliceAt a u n =>
    obtain ⟨rfl, hn⟩ : tool = .png ∧ IsInt n := hg
    have e : (Opt.sliceAt a u n).render = ascii "--slice=" ++ (axisName a u :: comma :: intDec n) := rfl
    have e8 : charAt (ascii "--slice=" ++ (axisName a u :: comma :: intDec n)) 8 = axisName a u := rfl
    have hpos : 0 < (intDec n).length := List.length_pos_iff.2 (text_intDec n).1
    have hl : (ascii "--slice=" ++ (axisName a u :: comma :: intDec n)).length = 10 + (intDec n).length := by
      rw [List.length_append, show (ascii "--slice=").length = 8 by decide]; simp only [List.length_cons]; omega
    have hshort : (intDec n).length ≤ 20 := by
      have h1 : (natDec n.natAbs).length ≤ (natDec (2 ^ 31)).length := Driver.natDec_length_le (by have : -2 ^ 31 ≤ n ∧ n < 2 ^ 31 := hn; omega)
      have h2 : (natDec (2 ^ 31)).length = 10 := by decide +kernel
      have h3 : (intDec n).length ≤ (natDec n.natAbs).length + 1 := by rw [intDec]; split <;> simp
      omega
    have es : substr (ascii "--slice=" ++ (axisName a u :: comma :: intDec n)) 10 20 = .ok (intDec n) := by
      rw [substr, if_neg (by omega)]
      exact congrArg _ (List.take_of_length_le hshort)
    rw [e, option_slice, slice, if_neg (not_or.2 ⟨by rw [hl]; omega, by rw [charAt_pre (by decide)]; decide⟩)]
    simp only [e8, axisOf_name, hl]
    rw [if_neg (by omega), if_pos (by omega), es, Outcome.ok_bind, atoi_intDec hn, Outcome.ok_bind]; rfl
  | contol a =>
    obtain ⟨ha, h1⟩ : Text a ∧ a.length ≠ 1 := hg
    rcases a with _ | ⟨c, t⟩
    · exact absurd rfl ha.1
    have ht : Text t := ⟨by rintro rfl; simp at h1, fun h => ha.2 (List.mem_cons_of_mem _ h)⟩
    have hval : num.atof t = num.atof (c :: t) := hr.2 _ rfl
    show option tool num o i (ascii "--contol=" ++ c :: t) = _
    rw [option_contol, contol_skips num o (by have : (c :: t).length ≤ 255 := hlen; simp at this; omega), atofToken, strtok_last ht]
    simp only [Outcome.ok_bind]
    rw [if_pos (by decide), hval]; rfl
  | contour n ls =>
    obtain ⟨hn, hn1, hls⟩ : IsInt n ∧ n ≠ -1 ∧ ∀ l ∈ ls, Text l := hg
    obtain ⟨r, h1, h2⟩ := strtok_csv (text_intDec n) hls
    have es := substr_pre (p := ascii "--contour=") (v := csv (intDec n :: ls)) (n := 255) hlen
    rw [show (ascii "--contour=").length = 10 by decide] at es
    show option tool num o i (ascii "--contour=" ++ csv (intDec n :: ls)) = _
    rw [option_contour, contour,
      if_neg (not_or.2 ⟨by rw [List.length_append, show (ascii "--contour=").length = 10 by decide]; omega, by rw [charAt_pre (by decide)]; decide⟩), es, Outcome.ok_bind, h1]
    simp only
    rw [atoi_intDec hn, Outcome.ok_bind, if_neg hn1, h2, insertLevels]; rfl
  | field ns =>
    have hns : ∀ n ∈ ns, IsInt n := hg
    have es := substr_pre (p := ascii "--field=") (v := csv (ns.map intDec)) (n := 255) hlen
    rw [show (ascii "--field=").length = 8 by decide] at es
    show option tool num o i (ascii "--field=" ++ csv (ns.map intDec)) = _
    rw [option_field, field, if_neg (by rw [charAt_pre (by decide)]; decide), es, Outcome.ok_bind, insertInts_csv hns, Outcome.ok_bind]; rfl
  | exclude ns =>
    have hns : ∀ n ∈ ns, IsInt n := hg
    have e : (Opt.exclude ns).render = ascii "--exclude=" ++ csv (ns.map intDec) := rfl
    have hp : ∀ (k : Nat), k ≤ 10 → (ascii "--exclude=" ++ csv (ns.map intDec)).take k = (ascii "--exclude=").take k := fun k hk =>
      take_pre (by simpa [ascii] using hk) _
    have hne : ∀ q : List Byte, (ascii "--exclude=").take 6 ≠ q.take 6 → ascii "--exclude=" ++ csv (ns.map intDec) ≠ q := fun q hq => ne_pre (by decide) hq
    have es := substr_pre (p := ascii "--exclude=") (v := csv (ns.map intDec)) (n := 255) hlen
    rw [show (ascii "--exclude=").length = 10 by decide] at es
    rw [e, option, if_neg (hne _ (by decide)), if_neg (fun h => hne _ (by decide) h.2), if_neg (fun h => hne _ (by decide) h.2),
      if_neg (fun h => by rw [hp 6 (by omega)] at h; revert h; cases tool <;> decide), if_neg (fun h => by rw [hp 7 (by omega)] at h; revert h; cases tool <;> decide),
      if_neg (fun h => by rw [hp 8 (by omega)] at h; revert h; cases tool <;> decide), if_neg (by rw [hp 8 (by omega)]; decide),
      if_neg (by rw [hp 9 (by omega)]; decide), if_neg (by rw [hp 7 (by omega)]; decide), if_pos (by rw [hp 9 (by omega)]; decide), exclude,
      if_neg (not_or.2 ⟨by rw [List.length_append, show (ascii "--exclude=").length = 10 by decide]; omega, by rw [charAt_pre (by decide)]; decide⟩), es, Outcome.ok_bind, insertInts_csv hns,
      Outcome.ok_bind]; rfl
  | file name =>
    have h2 : name.take 2 ≠ ascii "--" := hg
    have hq : ∀ q : List Byte, q.take 2 = ascii "--" → name ≠ q := fun q hq e => h2 (e ▸ hq)
    have ht : ∀ (q : List Byte) (k : Nat), 2 ≤ k → q.take 2 = ascii "--" → name.take k ≠ q := fun q k hk hq => take_two hk (hq ▸ h2)
    show option tool num o i name = _
    rw [option, if_neg (hq _ (by decide)), if_neg (fun h => hq _ (by decide) h.2), if_neg (fun h => hq _ (by decide) h.2), if_neg (fun h => ht _ 6 (by omega) (by decide) h.2),
      if_neg (fun h => ht _ 7 (by omega) (by decide) h.2), if_neg (fun h => ht _ 8 (by omega) (by decide) h.2), if_neg (ht _ 8 (by omega) (by decide)),
      if_neg (ht _ 9 (by omega) (by decide)), if_neg (ht _ 7 (by omega) (by decide)), if_neg (ht _ 9 (by omega) (by decide)), effect]
    split <;> rfl

theorem meaning_append (tool : Prog) (num : Num F) (os : List Opt) (x : Opt) :
    meaning tool num (os ++ [x]) = effect tool num (os.length + 1) (meaning tool num os) x := by
  have hlast : ∀ {β : Type} (f : Opt → Option β) (d : β), lastOf f (os ++ [x]) d = (f x).getD (lastOf f os d) := fun f d => by
    rw [lastOf, lastOf, List.filterMap_append]
    cases h : f x <;> simp [h]
  have hidx : ∀ p : Opt → Bool, lastIndex p (os ++ [x]) = if p x then os.length + 1 else lastIndex p os := fun p => by
    rw [lastIndex, lastIndex, List.zipIdx_append]
    cases h : p x <;> simp [h, Nat.add_comm]
  have hmode : ∀ (r : Nat) (l : List Nat), (l ++ [r]).foldr max 0 = max r (l.foldr max 0) := fun r l => by
    induction l with
    | nil => rfl
    | cons a l ih => rw [List.cons_append, List.foldr_cons, ih, List.foldr_cons]; omega
  have hset : ∀ {β : Type} [DecidableEq β] (f : Opt → Finset β), (os ++ [x]).foldr (fun o s => f o ∪ s) ∅ = f x ∪ os.foldr (fun o s => f o ∪ s) ∅ := fun f => by
    clear hlast hidx hmode
    induction os with
    | nil => rfl
    | cons a l ih => rw [List.cons_append, List.foldr_cons, ih, List.foldr_cons, ← Finset.union_assoc, Finset.union_comm (f a), Finset.union_assoc]
  simp only [meaning, hlast, hidx, hset, List.map_append, List.map_cons, List.map_nil, hmode, List.contains_append]
  cases x <;> simp [effect, Opt.isDat, Opt.isOut, Opt.rank, Opt.tolerance, Opt.axis, Opt.level, Opt.zoomed, Opt.lvl, Opt.fields, Opt.levels]
  rename_i name
  by_cases h : WrongEndian.finds (ext tool) name = true <;> simp [h]

theorem parse_append (tool : Prog) (num : Num F) (as : List (List Byte)) (a : List Byte) :
    parse tool num (as ++ [a]) = (parse tool num as).bind fun o => option tool num o (as.length + 1) a := by
  rw [parse, parse, List.zipIdx_append, List.foldlM_append, Nat.add_comm]
  show Outcome.bind _ _ = _
  congr 1; funext o
  show (option tool num o _ a).bind _ = _
  cases option tool num o (as.length + 1) a <;> rfl

/-! ## The theorems -/

/-- **C83.** Properly typed options mean what the usage messages say: modes by rank, sets collected, the last one of everything else. Values must have at most 255 characters,
and the tolerance must not depend on its first character. -/
theorem parse_render (tool : Prog) (num : Num F) {os : List Opt} (hg : ∀ x ∈ os, x.Good tool) (hr : ∀ x ∈ os, x.Read num) :
    parse tool num (os.map Opt.render) = .ok (meaning tool num os) := by
  induction os using List.reverseRecOn with
  | nil => rfl
  | append_singleton os x ih =>
    rw [List.map_append, List.map_cons, List.map_nil, parse_append,
      ih (fun y hy => hg y (List.mem_append_left _ hy)) (fun y hy => hr y (List.mem_append_left _ hy)), Outcome.ok_bind, List.length_map,
      option_render tool num _ _ (hg x (by simp)) (hr x (by simp)), meaning_append]

/-- **C83.** The whole front end on properly typed options: it goes on exactly if a data file is named. -/
theorem commandLine_render (tool : Prog) (num : Num F) {os : List Opt} (hg : ∀ x ∈ os, x.Good tool) (hr : ∀ x ∈ os, x.Read num) :
    commandLine tool num (os.map Opt.render) = if ∃ x ∈ os, x.isDat tool = true then .ok (meaning tool num os) else .abort (-1) := by
  have hdat : (∃ x ∈ os, x.isDat tool = true) ↔ (meaning tool num os).dat ≠ 0 := by
    show _ ↔ lastIndex _ os ≠ 0
    induction os using List.reverseRecOn with
    | nil => simp [lastIndex]
    | append_singleton os x ih =>
      have hidx : lastIndex (·.isDat tool) (os ++ [x]) = if x.isDat tool then os.length + 1 else lastIndex (·.isDat tool) os := by
        rw [lastIndex, lastIndex, List.zipIdx_append]
        cases h : x.isDat tool <;> simp [h, Nat.add_comm]
      have ih := ih (fun y hy => hg y (List.mem_append_left _ hy)) (fun y hy => hr y (List.mem_append_left _ hy))
      rw [hidx]
      by_cases hx : x.isDat tool = true
      · rw [if_pos hx]; exact ⟨fun _ => by omega, fun _ => ⟨x, by simp, hx⟩⟩
      · rw [if_neg hx, ← ih]
        constructor
        · rintro ⟨y, hy, hyd⟩
          rcases List.mem_append.1 hy with hy | hy
          · exact ⟨y, hy, hyd⟩
          · obtain rfl := List.mem_singleton.1 hy; exact absurd hyd hx
        · rintro ⟨y, hy, hyd⟩; exact ⟨y, List.mem_append_left _ hy, hyd⟩
  rcases os with _ | ⟨x, os⟩
  · rfl
  · have hne : x.render ≠ ascii "--help" := by
      have hx := hg x (by simp)
      cases x with
      | file name => intro e; exact hx (by show name.take 2 = _; rw [show name = ascii "--help" from e]; decide)
      | mag => decide
      | normal => decide
      | invert => decide
      | zoom => decide
      | coninv => decide
      | zoomTo a b => exact ne_pre (p := ascii "--zoom=") (n := 6) (by decide) (by decide)
      | slice a u => exact ne_pre (p := ascii "--slice=") (n := 6) (by decide) (by decide)
      | sliceAt a u n => exact ne_pre (p := ascii "--slice=") (n := 6) (by decide) (by decide)
      | contol a => exact ne_pre (p := ascii "--contol=") (n := 6) (by decide) (by decide)
      | contour n l => exact ne_pre (p := ascii "--contour=") (n := 6) (by decide) (by decide)
      | field ns => exact ne_pre (p := ascii "--field=") (n := 6) (by decide) (by decide)
      | exclude ns => exact ne_pre (p := ascii "--exclude=") (n := 6) (by decide) (by decide)
    rw [List.map_cons, commandLine, if_neg hne, ← List.map_cons, parse_render tool num hg hr, Outcome.ok_bind]
    by_cases h : (meaning tool num (x :: os)).dat = 0
    · rw [if_pos h, if_neg (fun e => hdat.1 e h)]
    · rw [if_neg h, if_pos (hdat.2 h)]

/-! ### The tolerance -/

/-- **C83, negative.** `--contol=`*text* sets the tolerance to what follows the first character of *text*. -/
theorem contol_drops (tool : Prog) (num : Num F) {as : List (List Byte)} {o : Opts F} (h : parse tool num as = .ok o) {c : Byte} {t : List Byte}
    (ht : Text t) (hl : t.length ≤ 255) :
    parse tool num (as ++ [ascii "--contol=" ++ c :: t]) = .ok { o with contol := num.atof t } := by
  rw [parse_append, h, Outcome.ok_bind, option_contol, contol_skips num o hl, atofToken, strtok_last ht]
  simp only [Outcome.ok_bind]
  rw [if_pos (by decide)]

theorem parse_fails (tool : Prog) (num : Num F) {as : List (List Byte)} {o : Opts F} (h : parse tool num as = .ok o) {a : List Byte} (rest : List (List Byte))
    {x : Outcome (Opts F)} (hx : option tool num o (as.length + 1) a = x) (hno : ∀ y, x ≠ .ok y) : parse tool num (as ++ a :: rest) = x := by
  have e := parse_append tool num as a
  rw [h, Outcome.ok_bind, hx] at e
  rw [show as ++ a :: rest = (as ++ [a]) ++ rest by simp, parse, List.zipIdx_append, List.foldlM_append]
  show (parse tool num (as ++ [a])).bind _ = _
  rw [e]
  cases x with
  | ok y => exact absurd rfl (hno y)
  | ub => rfl
  | abort c => rfl

/-- **C83, negative.** A tolerance of one character is undefined behaviour, whatever comes before and behind. -/
theorem contol_ub (tool : Prog) (num : Num F) {as : List (List Byte)} {o : Opts F} (h : parse tool num as = .ok o) (c : Byte) (rest : List (List Byte)) :
    parse tool num (as ++ (ascii "--contol=" ++ [c]) :: rest) = .ub := by
  refine parse_fails tool num h rest ?_ (by simp)
  rw [option_contol, contol_skips num o (by simp)]; rfl

/-- **C83, negative.** An empty tolerance throws. -/
theorem contol_throws (tool : Prog) (num : Num F) {as : List (List Byte)} {o : Opts F} (h : parse tool num as = .ok o) (rest : List (List Byte)) :
    parse tool num (as ++ ascii "--contol=" :: rest) = .abort 134 := by
  refine parse_fails tool num h rest ?_ (by simp)
  have := option_contol tool num o (as.length + 1) []
  rw [List.append_nil] at this
  rw [this, contol, if_neg (by decide)]; rfl

/-- **C83, negative.** `--contour=` without a field is undefined behaviour. -/
theorem contour_ub (tool : Prog) (num : Num F) {as : List (List Byte)} {o : Opts F} (h : parse tool num as = .ok o) (rest : List (List Byte)) :
    parse tool num (as ++ ascii "--contour=" :: rest) = .ub := by
  refine parse_fails tool num h rest ?_ (by simp)
  have := option_contour tool num o (as.length + 1) []
  rw [List.append_nil] at this
  rw [this, contour, if_neg (by decide)]; rfl

/-- **C83, negative.** `--zoom=` with one number is undefined behaviour. -/
theorem zoom_ub (num : Num F) {as : List (List Byte)} {o : Opts F} (h : parse .png num as = .ok o) {a : List Byte} (ha : Text a) (hl : a.length ≤ 255)
    (rest : List (List Byte)) : parse .png num (as ++ (ascii "--zoom=" ++ a) :: rest) = .ub := by
  refine parse_fails .png num h rest ?_ (by simp)
  have es := substr_pre (p := ascii "--zoom=") (v := a) (n := 255) hl
  rw [show (ascii "--zoom=").length = 7 by decide] at es
  rw [option_zoom, zoom, if_neg (not_or.2 ⟨by rw [List.length_append, show (ascii "--zoom=").length = 7 by decide]; omega, by rw [charAt_pre (by decide)]; decide⟩),
    es, Outcome.ok_bind, atofToken, strtok_last ha]
  rfl

/-- **C83, negative.** Of a list of fields only the first 255 characters count. -/
theorem field_cut (tool : Prog) (num : Num F) (as : List (List Byte)) (v : List Byte) :
    parse tool num (as ++ [ascii "--field=" ++ v]) = parse tool num (as ++ [ascii "--field=" ++ v.take 255]) := by
  rw [parse_append, parse_append]
  congr 1; funext o
  have es : ∀ v : List Byte, substr (ascii "--field=" ++ v) 8 255 = .ok (v.take 255) := fun v => by
    rw [substr, if_neg (by rw [List.length_append, show (ascii "--field=").length = 8 by decide]; omega)]; rfl
  rw [option_field, option_field, field, field, charAt_pre (by decide), charAt_pre (by decide), es, es, List.take_take]; rfl

/-- Fields 10000 to 10042. -/
def many : List Int := (List.range 43).map fun k : Nat => (10000 + k : Int)
/-- Fields 10000 to 10041 and field 100. -/
def fewer : List Int := ((List.range 42).map fun k : Nat => (10000 + k : Int)) ++ [100]

/-- **C83, negative.** So field 10042, the last of 43, becomes field 100. -/
theorem field_wrong (tool : Prog) (num : Num F) :
    ∃ o, parse tool num [(Opt.field many).render] = .ok o ∧ (100 : Int) ∈ o.fieldset ∧ (10042 : Int) ∈ many ∧ (10042 : Int) ∉ o.fieldset := by
  have h := field_cut tool num [] (Opt.field many).value
  have e : (Opt.field many).value.take 255 = (Opt.field fewer).value := by decide +kernel
  rw [e] at h
  have hp := parse_render tool num (os := [Opt.field fewer])
    (by
      intro x hx
      obtain rfl := List.mem_singleton.1 hx
      show ∀ n ∈ fewer, IsInt n
      intro n hn
      simp only [fewer, List.mem_append, List.mem_map, List.mem_range, List.mem_singleton] at hn
      show -2 ^ 31 ≤ n ∧ n < 2 ^ 31
      rcases hn with ⟨k, hk, rfl⟩ | rfl <;> omega)
    (by
      intro x hx
      obtain rfl := List.mem_singleton.1 hx
      exact ⟨by decide +kernel, fun a h => by cases h⟩)
  refine ⟨meaning tool num [Opt.field fewer], ?_, ?_⟩
  · exact h.trans hp
  · show (100 : Int) ∈ fewer.toFinset ∪ ∅ ∧ _ ∧ (10042 : Int) ∉ fewer.toFinset ∪ ∅
    simp only [Finset.union_empty, List.mem_toFinset]
    decide +kernel

/-! ### Decimal numbers -/

theorem decimal_digit {d : Byte} (hd : isDigit d = true) (ds : List Byte) (hs : ∀ b ∈ ds, isDigit b = true) :
    decimal (d :: Tool.dot :: ds) = ((d.toNat - 48 : Nat) : ℚ) + decimal (Tool.dot :: ds) := by
  have h0 : 48 ≤ d.toNat ∧ d.toNat ≤ 57 := by simpa [isDigit] using hd
  have hsp : isSpace d = false := by simp [isSpace]; omega
  have hm : ¬ d = minus := by rintro rfl; revert h0; decide
  have e1 : (d :: Tool.dot :: ds).dropWhile isSpace = d :: Tool.dot :: ds := List.dropWhile_cons_of_neg (by simp [hsp])
  have e2 : (Tool.dot :: ds).dropWhile isSpace = Tool.dot :: ds := List.dropWhile_cons_of_neg (by decide)
  have s1 : splitSign (d :: Tool.dot :: ds) = (false, d :: Tool.dot :: ds) := by rw [splitSign, if_neg hm, if_neg (by omega)]
  have s2 : splitSign (Tool.dot :: ds) = (false, Tool.dot :: ds) := by rw [splitSign, if_neg (by decide), if_neg (by decide)]
  have t1 : (d :: Tool.dot :: ds).takeWhile isDigit = [d] := by rw [List.takeWhile_cons_of_pos hd, List.takeWhile_cons_of_neg (by decide)]
  have t2 : (Tool.dot :: ds).takeWhile isDigit = [] := List.takeWhile_cons_of_neg (by decide)
  have d1 : (d :: Tool.dot :: ds).dropWhile isDigit = Tool.dot :: ds := by rw [List.dropWhile_cons_of_pos hd, List.dropWhile_cons_of_neg (by decide)]
  have d2 : (Tool.dot :: ds).dropWhile isDigit = Tool.dot :: ds := List.dropWhile_cons_of_neg (by decide)
  rw [decimal, decimal, e1, e2, s1, s2]
  dsimp only
  rw [t1, t2, d1, d2]
  have v1 : digitsVal [d] = d.toNat - 48 := by simp [digitsVal]
  have v2 : digitsVal [] = 0 := rfl
  rw [v1, v2]
  simp only [Bool.false_eq_true, if_false, Nat.cast_zero]
  ring

/-- **C83.** A tolerance like 0.05 is read correctly, one like 1.5 is not: without the first digit the value is the same exactly if that digit is a zero. -/
theorem decimal_first {d : Byte} (hd : isDigit d = true) {ds : List Byte} (hs : ∀ b ∈ ds, isDigit b = true) :
    decimal ((d :: Tool.dot :: ds).drop 1) = decimal (d :: Tool.dot :: ds) ↔ d = 48 := by
  rw [decimal_digit hd ds hs]
  show decimal (Tool.dot :: ds) = _ ↔ _
  have h0 : 48 ≤ d.toNat ∧ d.toNat ≤ 57 := by simpa [isDigit] using hd
  constructor
  · intro h
    have : ((d.toNat - 48 : Nat) : ℚ) = 0 := by linarith
    have h2 : d.toNat - 48 = 0 := by exact_mod_cast this
    exact UInt8.toNat_inj.1 (by show d.toNat = 48; omega)
  · rintro rfl
    have : ((48 : Byte).toNat - 48 : Nat) = 0 := by decide
    rw [this, Nat.cast_zero, zero_add]

/-! ### Names -/

/-- The beginnings of options. -/
def words : List (List Byte) :=
  [ascii "--mag", ascii "--normal", ascii "--invert", ascii "--zoom", ascii "--slice", ascii "--coninv", ascii "--contol", ascii "--contour", ascii "--field", ascii "--exclude"]

/-- **C83, negative.** An argument that does not begin like an option, be it a misspelt option, counts as the data file, unless it contains the extension. -/
theorem unknown_is_data (tool : Prog) (num : Num F) {as : List (List Byte)} {o : Opts F} (h : parse tool num as = .ok o) {a : List Byte}
    (ha : ∀ w ∈ words, a.take w.length ≠ w) (he : WrongEndian.finds (ext tool) a = false) :
    parse tool num (as ++ [a]) = .ok { o with dat := as.length + 1 } := by
  have hq : ∀ w ∈ words, a ≠ w := fun w hw e => ha w hw (by rw [e, List.take_length])
  rw [parse_append, h, Outcome.ok_bind, option, if_neg (hq _ (by decide)), if_neg (fun h => hq _ (by decide) h.2), if_neg (fun h => hq _ (by decide) h.2),
    if_neg (fun h => ha (ascii "--zoom") (by decide) h.2), if_neg (fun h => ha (ascii "--slice") (by decide) h.2), if_neg (fun h => ha (ascii "--coninv") (by decide) h.2),
    if_neg (show ¬ a.take 8 = ascii "--contol" from fun h => ha (ascii "--contol") (by decide) h), if_neg (show ¬ a.take 9 = ascii "--contour" from fun h => ha (ascii "--contour") (by decide) h),
    if_neg (show ¬ a.take 7 = ascii "--field" from fun h => ha (ascii "--field") (by decide) h), if_neg (show ¬ a.take 9 = ascii "--exclude" from fun h => ha (ascii "--exclude") (by decide) h), if_neg (by rw [he]; decide)]

example : (∀ w ∈ words, (ascii "--coutour=1,0.5").take w.length ≠ w) ∧ WrongEndian.finds (ext .xyz) (ascii "--coutour=1,0.5") = false := by decide +kernel

/-! ### Examples -/

local instance (n : Int) : Decidable (IsInt n) := inferInstanceAs (Decidable (_ ∧ _))

/-- Decimal fractions, with a large number for the limits of `--zoom`. -/
def rational : Num ℚ := ⟨decimal, 0, 1, 6 / 100, 10 ^ 154, -10 ^ 154⟩

/-- `mmsp2png --zoom=0,2.5 --slice=Y,-3 --contol=0.05 --contour=2,0.5,.25 --exclude=1,4 in.dat out.png` -/
def pngLine : List Opt :=
  [.zoomTo (ascii "0") (ascii "2.5"), .sliceAt 1 true (-3), .contol (ascii "0.05"), .contour 2 [ascii "0.5", ascii ".25"], .exclude [1, 4], .file (ascii "in.dat"),
   .file (ascii "out.png")]

example : (∀ x ∈ pngLine, x.Good .png) ∧ ∀ x ∈ pngLine, x.Read rational := by
  constructor
  · simp only [pngLine, List.forall_mem_cons, Opt.Good]
    refine ⟨by decide, by decide, by decide, by decide, by decide, by decide, by decide, by simp⟩
  · simp only [pngLine, List.forall_mem_cons, Opt.Read]
    refine ⟨⟨by decide +kernel, fun a h => by cases h⟩, ⟨by decide +kernel, fun a h => by cases h⟩, ⟨by decide +kernel, fun a h => by cases h; decide +kernel⟩,
      ⟨by decide +kernel, fun a h => by cases h⟩, ⟨by decide +kernel, fun a h => by cases h⟩, ⟨by decide +kernel, fun a h => by cases h⟩,
      ⟨by decide +kernel, fun a h => by cases h⟩, by simp⟩

example : meaning .png rational pngLine = ⟨6, 7, 3, false, false, false, 1 / 20, 1, -3, 0, 5 / 2, 2, {1, 4}, {1 / 2, 1 / 4}⟩ := by decide +kernel

/-- `mmsp2xyz --contol=1.5` gives 1/2. -/
example : parse .xyz rational [ascii "--contol=1.5"] = .ok { Opts.init rational with contol := 1 / 2 } := by
  have := contol_drops .xyz rational (as := []) rfl (c := 49) (t := ascii ".5") (by decide) (by decide)
  rw [show rational.atof (ascii ".5") = 1 / 2 by decide +kernel] at this
  exact this

/-- A data file in a directory whose name contains `.xyz` counts as the output: no input. -/
example : commandLine .xyz rational [ascii "melt.xyz/in.dat"] = .abort (-1) := by
  rw [show [ascii "melt.xyz/in.dat"] = [Opt.file (ascii "melt.xyz/in.dat")].map Opt.render from rfl, commandLine_render .xyz rational
    (by simp only [List.forall_mem_cons, Opt.Good]; exact ⟨by decide, by simp⟩)
    (by simp only [List.forall_mem_cons, Opt.Read]; exact ⟨⟨by decide +kernel, fun a h => by cases h⟩, by simp⟩), if_neg (by decide +kernel)]

end MMSP.Options
