import Verif.DriverProps
/-!
# When the main program generates an example, and when it prints the help

`include/MMSP.main.hpp` 54-125. `main_generates` and `main_help` say for which command lines, and no others, `generate` is called or
the help printed; `example_rejects` that every other use of `--example` is refused before anything is written.
-/

namespace MMSP.Driver

open MMSP.FileIO

variable {G : Type}

theorem simulate_kind (load : Int → List Byte → Outcome G) (update : G → Int → G) (file : List Byte → Option (List Byte)) (fuel : Nat)
    (argv : List (List Byte)) {r : Result G} (h : simulate load update file fuel argv = .ok r) :
    r ≠ .help ∧ ∀ n nm, r ≠ .generated n nm := by
  unfold simulate at h
  cases hp : params argv with
  | ub => rw [hp] at h; cases h
  | abort => rw [hp] at h; cases h
  | ok p =>
    rw [hp, Outcome.ok_bind] at h
    cases hf : file (argv.getD 1 []) with
    | none => rw [hf] at h; cases h
    | some c =>
      rw [hf] at h
      simp only at h
      split at h
      · cases h
      · cases hx : extractInt (getline c).2 with
        | none => rw [hx] at h; cases h
        | some d =>
          obtain ⟨dim, q⟩ := d
          rw [hx] at h
          simp only at h
          cases hs : iterationsStart p.outfile with
          | ub => rw [hs] at h; cases h
          | abort => rw [hs] at h; cases h
          | ok s =>
            rw [hs, Outcome.ok_bind] at h
            split at h
            · cases hl : load dim c with
              | ub => rw [hl] at h; cases h
              | abort => rw [hl] at h; cases h
              | ok g =>
                rw [hl, Outcome.ok_bind] at h
                cases ht : timeLoop update p fuel s g with
                | ub => rw [ht] at h; cases h
                | abort => rw [ht] at h; cases h
                | ok t =>
                  rw [ht, Outcome.ok_bind] at h
                  cases t <;> (cases h; exact ⟨by simp, by simp⟩)
            · cases h
              exact ⟨by simp, by simp⟩

theorem atoi_all_iff {s : List Byte} (h : allDigits s = true) {n : Int} : atoi s = .ok n ↔ n = digitsVal s ∧ digitsVal s < 2 ^ 31 := by
  constructor
  · intro ha
    by_cases hv : digitsVal s < 2 ^ 31
    · rw [atoi_all h hv] at ha
      cases ha
      exact ⟨rfl, hv⟩
    · exfalso
      have dg : ∀ b : Byte, isDigit b = true → isSpace b = false ∧ b ≠ minus ∧ b.toNat ≠ 43 := by
        intro b hb
        simp only [isDigit, Bool.and_eq_true, decide_eq_true_eq] at hb
        exact ⟨by simp [isSpace]; omega, by rintro rfl; revert hb; decide, by omega⟩
      have hw : s.dropWhile isSpace = s := by
        cases s with
        | nil => rfl
        | cons b t =>
          have hb : isDigit b = true := by simp [allDigits] at h; exact h.1
          simp [(dg b hb).1]
      have hs : splitSign s = (false, s) := by
        cases s with
        | nil => rfl
        | cons b t =>
          have hb : isDigit b = true := by simp [allDigits] at h; exact h.1
          simp [splitSign, (dg b hb).2.1, (dg b hb).2.2]
      have ht : s.takeWhile isDigit = s := by
        have h' : ∀ b ∈ s, isDigit b = true := by simpa [allDigits] using h
        exact takeWhile_all h'
      simp only [atoi, hw, hs, ht] at ha
      rw [if_neg (by simp; omega)] at ha
      cases ha
  · rintro ⟨rfl, hv⟩
    exact atoi_all h hv

/-- **C30.** `generate(n, name)` is called for the command lines `prog --example n` (the name is then `example`) and
`prog --example n name`, where `n` is written in decimal digits and fits an `int`, and for no other. -/
theorem main_generates (load : Int → List Byte → Outcome G) (update : G → Int → G) (file : List Byte → Option (List Byte)) (fuel : Nat)
    (argv : List (List Byte)) (n : Int) (name : List Byte) :
    main load update file fuel argv = .ok (.generated n name) ↔
      ∃ prog ds, (argv = [prog, ascii "--example", ds] ∧ name = ascii "example" ∨ argv = [prog, ascii "--example", ds, name]) ∧
        (∀ b ∈ ds, isDigit b = true) ∧ n = digitsVal ds ∧ digitsVal ds < 2 ^ 31 := by
  have hne : ascii "--example" ≠ ascii "--help" := by decide
  constructor
  · intro h
    unfold main at h
    split at h
    · cases h
    split at h
    · cases h
    split at h
    · rename_i h2 _ he
      split at h
      · cases h
      rename_i hl
      split at h
      · cases h
      rename_i hd
      have hd' : allDigits (argv.getD 2 []) = true := by simpa using hd
      cases ha : atoi (argv.getD 2 []) with
      | ub => rw [ha] at h; cases h
      | abort => rw [ha] at h; cases h
      | ok k =>
        rw [ha, Outcome.ok_bind] at h
        have hk := (atoi_all_iff hd').1 ha
        have hal : ∀ b ∈ argv.getD 2 [], isDigit b = true := by simpa [allDigits] using hd'
        obtain ⟨prog, e, ds, t, rfl⟩ : ∃ prog e ds t, argv = prog :: e :: ds :: t := by
          rcases argv with _ | ⟨p, _ | ⟨e, _ | ⟨d, t⟩⟩⟩
          · simp at hl
          · simp at hl
          · simp at hl
          · exact ⟨p, e, d, t, rfl⟩
        have he' : e = ascii "--example" := he
        have hal' : ∀ b ∈ ds, isDigit b = true := hal
        have hk' : k = digitsVal ds ∧ digitsVal ds < 2 ^ 31 := hk
        have hn := Outcome.ok.inj h
        rcases t with _ | ⟨o, _ | ⟨q, t⟩⟩
        · rw [if_pos (by simp)] at hn
          obtain ⟨rfl, rfl⟩ := Result.generated.inj hn
          exact ⟨prog, ds, .inl ⟨by rw [he'], rfl⟩, hal', hk'⟩
        · rw [if_neg (by simp)] at hn
          obtain ⟨rfl, hnm⟩ := Result.generated.inj hn
          have hnm' : o = name := hnm
          exact ⟨prog, ds, .inr (by rw [he', hnm']), hal', hk'⟩
        · simp only [List.length_cons] at hl
          omega
    · exact absurd rfl ((simulate_kind load update file fuel argv h).2 n name)
  · rintro ⟨prog, ds, h, hd, rfl, hv⟩
    have hd' : allDigits ds = true := by simpa [allDigits] using hd
    rcases h with ⟨rfl, rfl⟩ | rfl <;> simp [main, hne, hd', atoi_all hd' hv]

/-- **C30.** The help is printed if the first argument is `--help`, whatever follows, and otherwise never. -/
theorem main_help (load : Int → List Byte → Outcome G) (update : G → Int → G) (file : List Byte → Option (List Byte)) (fuel : Nat)
    (argv : List (List Byte)) :
    main load update file fuel argv = .ok .help ↔ ∃ prog rest, argv = prog :: ascii "--help" :: rest := by
  constructor
  · intro h
    unfold main at h
    split at h
    · cases h
    rename_i hl
    split at h
    · rename_i hh
      match argv, hl, hh with
      | [], hl, _ => simp at hl
      | [_], hl, _ => simp at hl
      | p :: e :: r, _, hh =>
        simp only [List.getD_cons_succ, List.getD_cons_zero] at hh
        subst hh
        exact ⟨p, r, rfl⟩
    split at h
    · split at h
      · cases h
      split at h
      · cases h
      cases ha : atoi (argv.getD 2 []) with
      | ub => rw [ha] at h; cases h
      | abort => rw [ha] at h; cases h
      | ok k => rw [ha] at h; cases h
    · exact absurd rfl (simulate_kind load update file fuel argv h).1
  · rintro ⟨p, r, rfl⟩
    simp [main]

/-- **C30.** `--example` with no dimension, with a dimension that is not made of digits, or with more than one name ends the program
with code -1. (The empty argument is made of digits: the dimension is then 0.) -/
theorem example_rejects (load : Int → List Byte → Outcome G) (update : G → Int → G) (file : List Byte → Option (List Byte)) (fuel : Nat)
    (prog : List Byte) (rest : List (List Byte))
    (h : rest = [] ∨ (∃ d t, rest = d :: t ∧ ∃ b ∈ d, isDigit b = false) ∨ 3 ≤ rest.length) :
    main load update file fuel (prog :: ascii "--example" :: rest) = .abort (-1) := by
  have hne : ascii "--example" ≠ ascii "--help" := by decide
  unfold main
  rw [if_neg (by simp), if_neg (by simpa using hne), if_pos (show (prog :: ascii "--example" :: rest).getD 1 [] = ascii "--example" from rfl)]
  rcases h with rfl | ⟨d, t, rfl, b, hb, hbd⟩ | h
  · rfl
  · split
    · rfl
    · rw [if_pos]
      simp only [List.getD_cons_succ, List.getD_cons_zero, allDigits, List.all_eq_true, not_forall]
      exact ⟨b, hb, by simp [hbd]⟩
  · rw [if_pos (by simp only [List.length_cons]; omega)]

/-- **C30.** No arguments at all: refused. -/
theorem main_no_arguments (load : Int → List Byte → Outcome G) (update : G → Int → G) (file : List Byte → Option (List Byte)) (fuel : Nat)
    (argv : List (List Byte)) (h : argv.length < 2) : main load update file fuel argv = .abort (-1) := by
  rw [main, if_pos h]

example (load : Int → List Byte → Outcome G) (update : G → Int → G) (file : List Byte → Option (List Byte)) :
    main load update file 0 [ascii "prog", ascii "--example", ascii "3"] = .ok (.generated 3 (ascii "example")) :=
  (main_generates load update file 0 _ 3 _).2 ⟨_, _, .inl ⟨rfl, rfl⟩, by decide, by decide, by decide⟩

example : ∃ d : List Byte, ∃ b ∈ d, isDigit b = false := ⟨ascii "2d", by decide⟩

end MMSP.Driver
