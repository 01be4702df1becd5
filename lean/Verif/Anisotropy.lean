import Mathlib.Algebra.Field.Defs
import Mathlib.Data.Rat.Defs
import Mathlib.Algebra.Order.Group.Int
import Mathlib.Tactic.SplitIfs
/-!
# Tables of boundary energies and mobilities (C45)

Model of `examples/coarsening/grain_growth/anisotropic/sparsePF/anisotropy.hpp` 9-54; the file is identical (byte for byte) in `grain_growth/anisotropic/phase_field`,
`zener_pinning/anisotropic/{Monte_Carlo,sparsePF,phase_field}` and `phase_transitions/solidification/anisotropic`. `energy` and `mobility` are the same function with different
tables.

Simplifications: `std::map<int,std::map<int,float> >` is a function that is 0 where nothing was stored (`operator[]` inserts 0); the place marked "compute energy here..." is an
arbitrary function of the two arguments, which in the file is the constant 1.
-/

namespace MMSP.Anisotropy

variable {α : Type} [Zero α] [DecidableEq α]

/-- Contents of `energy_table`. -/
abbrev Table (α : Type) := Int → Int → α

/-- `energy(i,j)`, `anisotropy.hpp` 18-35, `mobility(i,j)` 37-54: the value returned and the table afterwards. -/
def lookup (compute : Int → Int → α) (t : Table α) (i j : Int) : α × Table α :=
  if i = j then (0, t)
  else
    let a := if i < j then i else j
    let b := if i > j then i else j
    let value := t a b
    if value = 0 then
      let value := compute i j
      (value, Function.update t a (Function.update (t a) b value))
    else (value, t)

/-- A sequence of calls: the table afterwards. -/
def calls (compute : Int → Int → α) (t : Table α) : List (Int × Int) → Table α
  | [] => t
  | c :: cs => calls compute (lookup compute t c.1 c.2).2 cs

/-- `compute` as it stands in the file, `anisotropy.hpp` 30-31. -/
def one [One α] : Int → Int → α := fun _ _ => 1

/-! ## Properties -/

theorem calls_append (compute : Int → Int → α) (t : Table α) (h1 h2 : List (Int × Int)) : calls compute t (h1 ++ h2) = calls compute (calls compute t h1) h2 := by
  induction h1 generalizing t with
  | nil => rfl
  | cons c h1 ih => exact ih _

/-- **C45.** The order of the arguments does not matter to a call that finds a stored value. -/
theorem lookup_comm (compute : Int → Int → α) (t : Table α) {i j : Int} (h : t (min i j) (max i j) ≠ 0) : lookup compute t i j = lookup compute t j i := by
  unfold lookup
  by_cases e : i = j
  · rw [e]
  · rw [if_neg e, if_neg (Ne.symm e)]
    rcases lt_or_gt_of_ne e with hlt | hlt
    · rw [min_eq_left hlt.le, max_eq_right hlt.le] at h
      simp only [if_pos hlt, if_neg (not_lt.2 hlt.le), gt_iff_lt, if_neg h]
    · rw [min_eq_right hlt.le, max_eq_left hlt.le] at h
      simp only [if_pos hlt, if_neg (not_lt.2 hlt.le), gt_iff_lt, if_neg h]

/-- A value once stored stays. -/
theorem lookup_keeps (compute : Int → Int → α) (t : Table α) (i j : Int) {a b : Int} (h : t a b ≠ 0) : (lookup compute t i j).2 a b = t a b := by
  unfold lookup
  by_cases e : i = j
  · rw [if_pos e]
  · rw [if_neg e]
    generalize (if i < j then i else j) = x
    generalize (if i > j then i else j) = y
    by_cases hv : t x y = 0
    · simp only [if_pos hv]
      by_cases ha : a = x
      · subst ha
        rw [Function.update_self]
        by_cases hb : b = y
        · subst hb; exact absurd hv h
        · rw [Function.update_of_ne hb]
      · rw [Function.update_of_ne ha]
    · simp only [if_neg hv]

theorem calls_keeps (compute : Int → Int → α) (t : Table α) (cs : List (Int × Int)) {a b : Int} (h : t a b ≠ 0) : calls compute t cs a b = t a b := by
  induction cs generalizing t with
  | nil => rfl
  | cons c cs ih =>
    have := lookup_keeps compute t c.1 c.2 h
    rw [calls, ih _ (by rw [this]; exact h), this]

/-- What a call returns for two different indices, and what it leaves in the table. -/
theorem lookup_value (compute : Int → Int → α) (t : Table α) {i j : Int} (hij : i ≠ j) :
    (lookup compute t i j).1 = (if t (min i j) (max i j) = 0 then compute i j else t (min i j) (max i j)) ∧
      (lookup compute t i j).2 (min i j) (max i j) = (lookup compute t i j).1 := by
  unfold lookup
  rw [if_neg hij]
  rcases lt_or_gt_of_ne hij with hlt | hlt
  · simp only [min_eq_left hlt.le, max_eq_right hlt.le, if_pos hlt, if_neg (not_lt.2 hlt.le), gt_iff_lt]
    split_ifs <;> simp
  · simp only [min_eq_right hlt.le, max_eq_left hlt.le, if_pos hlt, if_neg (not_lt.2 hlt.le), gt_iff_lt]
    split_ifs <;> simp

/-- **C45.** Whatever was called before and whatever is called in between: once `energy(i,j)` has been called, every later `energy(i,j)` and `energy(j,i)` returns the same
value. (For an energy function that never computes 0; with 0 the value is computed anew, see `zero_recomputed`.) -/
theorem stable {compute : Int → Int → α} (hc : ∀ i j, compute i j ≠ 0) (before between : List (Int × Int)) (t : Table α) (i j : Int) :
    let first := lookup compute (calls compute t before) i j
    (lookup compute (calls compute first.2 between) i j).1 = first.1 ∧ (lookup compute (calls compute first.2 between) j i).1 = first.1 := by
  intro first
  by_cases e : i = j
  · subst e
    have : ∀ t : Table α, lookup compute t i i = (0, t) := fun t => if_pos rfl
    simp only [first, this, and_self]
  · obtain ⟨h1, h2⟩ := lookup_value compute (calls compute t before) e
    have hv : first.1 ≠ 0 := by
      show (lookup compute (calls compute t before) i j).1 ≠ 0
      rw [h1]
      split_ifs with h
      · exact hc i j
      · exact h
    have hk : calls compute first.2 between (min i j) (max i j) = first.1 := by
      have h3 : first.2 (min i j) (max i j) = first.1 := h2
      rw [calls_keeps compute first.2 between (by rw [h3]; exact hv), h3]
    have ha : (lookup compute (calls compute first.2 between) i j).1 = first.1 := by
      rw [(lookup_value compute _ e).1, hk, if_neg hv]
    refine ⟨ha, ?_⟩
    rw [← lookup_comm compute _ (by rw [hk]; exact hv), ha]

/-- The values a table of a symmetric energy function can hold. -/
def Sound (f : Int → Int → α) (t : Table α) : Prop := ∀ a b, a < b → t a b = 0 ∨ t a b = f a b

/-- **C45.** For a symmetric energy function every call of every history returns the function's value, 0 for equal indices; 0 as a value is allowed. -/
theorem lookup_spec {f : Int → Int → α} (hf : ∀ i j, f i j = f j i) (history : List (Int × Int)) (i j : Int) :
    (lookup f (calls f (fun _ _ => 0) history) i j).1 = if i = j then 0 else f i j := by
  have step : ∀ (t : Table α) (c : Int × Int), Sound f t → Sound f (lookup f t c.1 c.2).2 := by
    rintro t ⟨x, y⟩ hs a b hab
    unfold lookup
    dsimp only
    by_cases e : x = y
    · rw [if_pos e]; exact hs a b hab
    · rw [if_neg e]
      by_cases hv : t (if x < y then x else y) (if x > y then x else y) = 0
      · rw [if_pos hv]
        dsimp only
        by_cases ha : a = if x < y then x else y
        · rw [← ha, Function.update_self]
          by_cases hb : b = if x > y then x else y
          · rw [← hb, Function.update_self]
            right
            rcases lt_or_gt_of_ne e with hlt | hlt
            · rw [if_pos hlt] at ha; rw [if_neg (not_lt.2 hlt.le)] at hb; rw [ha, hb]
            · rw [if_neg (not_lt.2 hlt.le)] at ha; rw [if_pos hlt] at hb; rw [ha, hb, hf]
          · rw [Function.update_of_ne hb]; exact hs a b hab
        · rw [Function.update_of_ne ha]; exact hs a b hab
      · rw [if_neg hv]; exact hs a b hab
  have all : ∀ (h : List (Int × Int)) (t : Table α), Sound f t → Sound f (calls f t h) := by
    intro h
    induction h with
    | nil => exact fun t ht => ht
    | cons c h ih => exact fun t ht => ih _ (step t c ht)
  have hS := all history (fun _ _ => 0) fun _ _ _ => Or.inl rfl
  by_cases e : i = j
  · rw [if_pos e]; unfold lookup; rw [if_pos e]
  · rw [if_neg e, (lookup_value f _ e).1]
    have hlt : min i j < max i j := by rcases lt_or_gt_of_ne e with h | h <;> simp [min_def, max_def] <;> split_ifs <;> omega
    rcases hS _ _ hlt with h | h
    · rw [if_pos h]
    · have : f (min i j) (max i j) = f i j := by
        rcases le_total i j with h | h
        · rw [min_eq_left h, max_eq_right h]
        · rw [min_eq_right h, max_eq_left h, hf]
      rw [h, this]
      split_ifs with h0
      · rfl
      · rfl

/-- **C45.** The file as it stands: 1 between different grains, 0 within a grain, whatever the history. -/
theorem energy_spec (history : List (Int × Int)) (i j : Int) :
    (lookup one (calls one (fun _ _ => (0 : ℚ)) history) i j).1 = if i = j then 0 else 1 :=
  lookup_spec (f := (one : Int → Int → ℚ)) (fun _ _ => rfl) history i j

/-- Why `stable` needs values other than 0: an energy that is not symmetric and 0 for one order of the arguments is computed anew at every call. -/
theorem zero_recomputed : ∃ f : Int → Int → ℚ, (lookup f (calls f (fun _ _ => 0) [(1, 2)]) 1 2).1 ≠ (lookup f (calls f (fun _ _ => 0) [(1, 2)]) 2 1).1 :=
  ⟨fun i j => if i < j then 0 else 1, by decide +kernel⟩

example : (lookup (fun i j => if i < j then (1 : ℚ) else 2) (calls (fun i j => if i < j then (1 : ℚ) else 2) (fun _ _ => 0) [(5, 3), (1, 2), (3, 5)]) 3 5).1 = 2 := by
  decide +kernel

end MMSP.Anisotropy
