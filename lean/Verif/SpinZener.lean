import Verif.Sparse
import Verif.SparseProps
import Verif.SpinProps
import Verif.Anisotropy
/-!
# Monte Carlo grain growth with pinning particles (C53)

Model of the `update` loops of `examples/coarsening/zener_pinning/anisotropic/Monte_Carlo/zener.cpp` 90-210 and `examples/coarsening/zener_pinning/isotropic/Monte_Carlo/zener.cpp`
89-205. Spin 0 marks a particle.

The isotropic file is the anisotropic one with `energy(a,b)` replaced by `a!=b` (lines 155, 160 against 156, 161) and with a different acceptance test; both are the same function
here with `energy`, `cold` and `hot` as parameters.

Simplifications: as for the other spin models (`Verif/Spin.lean`); three numbers are drawn per attempt, the last two only if needed.
-/

namespace MMSP.SpinZener

open Stencil (gridAt bump view)
open Spin Finset Sparse

section
variable {α : Type} [Field α] [LinearOrder α]

/-- The spins near a site, `zener.cpp` 116-149; the entries `true` are 1. -/
def near (bd : Build) (g : Shape) (data : Int → Int) (axes : List Nat) (x : Nat → Int) : Outcome (Sparse.Cell Int) :=
  boxFold (fun s y => (gridAt bd g data y).bind fun spin => .ok (Sparse.update s spin fun _ => 1)) axes x []

/-- `dE`, `anisotropic/Monte_Carlo/zener.cpp` 156-190. -/
def energyChange (bd : Build) (g : Shape) (energy : Int → Int → α) (data : Int → Int) (axes : List Nat) (x : Nat → Int) (spin1 spin2 : Int) : Outcome α :=
  boxFold (fun a y => (gridAt bd g data y).bind fun spin => .ok (a + (energy spin spin2 - energy spin spin1))) axes x (-energy spin1 spin2)

/-- One pass of the loop over `h`, `anisotropic/Monte_Carlo/zener.cpp` 108-206 and `isotropic/Monte_Carlo/zener.cpp` 107-201. `cold spin1 spin2 r` is the test `r<M*E` (isotropic:
always true) for `dE<=0.0`, `hot dE spin1 spin2 r` is `r<M*E*exp(-dE/(E*kT))` (isotropic: `r<exp(-dE/kT)`). -/
def zenerFlip (bd : Build) (g : Shape) (energy : Int → Int → α) (cold : Int → Int → Nat → Bool) (hot : α → Int → Int → Nat → Bool) (data : Int → Int) (r : Nat × Nat × Nat) :
    Outcome (Int → Int) :=
  if g.nodes.toNat = 0 then .ub else
  let p := r.1 % g.nodes.toNat
  (deref g data (g.atNode bd p)).bind fun spin1 =>
  if spin1 ≠ 0 then
    (near bd g data (List.range g.dim) (g.position p)).bind fun neighbors =>
    match neighbors[r.2.1 % neighbors.length]? with
    | none => .ub
    | some e =>
      let spin2 := e.1
      if spin1 ≠ spin2 ∧ spin2 ≠ 0 then
        (energyChange bd g energy data (List.range g.dim) (g.position p) spin1 spin2).bind fun dE =>
        if dE ≤ 0 then
          if cold spin1 spin2 r.2.2 then store g data (g.atNode bd p) spin2 else .ok data
        else
          if hot dE spin1 spin2 r.2.2 then store g data (g.atNode bd p) spin2 else .ok data
      else .ok data
  else .ok data

/-- `update(mcGrid, steps)`. -/
def zenerRun (bd : Build) (g : Shape) (energy : Int → Int → α) (cold : Int → Int → Nat → Bool) (hot : α → Int → Int → Nat → Bool) (draws : List (Nat × Nat × Nat)) (data : Int → Int) :
    Outcome (Int → Int) := draws.foldlM (zenerFlip bd g energy cold hot) data

/-! ## Properties -/

omit [LinearOrder α] in
/-- **C53.** The computed energy change is the change of the total boundary energy, every pair counted from both ends, for every symmetric energy that vanishes within a grain. -/
theorem energyChange_spec {g : Shape} (ht : Torus g) (hside : ∀ j < g.dim, 2 ≤ g.x1 j - g.x0 j) {energy : Int → Int → α} (hsym : ∀ a b, energy a b = energy b a)
    (hz : ∀ a, energy a a = 0) (d : Int → Int) {m : Nat} (hm : m < g.nodes.toNat) (spin2 : Int) :
    ∃ s, energyChange .serial g energy d (List.range g.dim) (g.position m) (d m) spin2 = .ok s ∧
      interaction g (List.range g.dim) energy (Function.update d (m : Int) spin2) - interaction g (List.range g.dim) energy d = 2 * s := by
  classical
  have hw := range_wide hside
  refine ⟨_, boxSum_eq ht hw.1 d (fun spin => energy spin spin2 - energy spin (d m)) (by omega) (by omega) _, ?_⟩
  rw [interaction_update ht hw.1 hsym d hm]
  have h1 : ∀ o ∈ offsets (List.range g.dim), (if nbr g o m = m then energy spin2 spin2 - energy (d m) (d m) else 2 * (energy spin2 (d (nbr g o m)) - energy (d m) (d (nbr g o m)))) =
      if o = (fun _ => 0) then 0 else 2 * (energy (d (nbr g o m)) spin2 - energy (d (nbr g o m)) (d m)) := by
    intro o ho
    have := nbr_self ht hw.1 hw.2 ho (n := (m : Int)) (by omega) (by omega)
    by_cases e : o = fun _ => 0
    · rw [if_pos (this.2 e), if_pos e, hz, hz, sub_self]
    · rw [if_neg (fun h => e (this.1 h)), if_neg e, hsym spin2, hsym (d m)]
  rw [List.map_congr_left h1, split_zero hw.1]
  have h0 : nbr g (fun _ => 0) m = m := (nbr_self ht hw.1 hw.2 ((mem_offsets hw.1).2 ⟨near_zero, fun _ _ => rfl⟩) (by omega) (by omega)).2 rfl
  rw [h0, List.sum_map_mul_left, hz]
  ring

/-- The list of spins near a site: the spins of the nodes visited, each once; the spin of the site itself is among them. -/
theorem near_spec {g : Shape} (ht : Torus g) (d : Int → Int) {axes : List Nat} (hn : axes.Nodup) {m : Nat} (hm : m < g.nodes.toNat) :
    ∃ s, near .serial g d axes (g.position m) = .ok s ∧ Ok s ∧ ∀ k, k ∈ keys s ↔ ∃ o ∈ offsets axes, d (nbr g o m) = k := by
  unfold near
  rw [boxFold_eq _ hn]
  have key : ∀ (l : List (Nat → Int)), (∀ o ∈ l, Near o) → ∀ s : Sparse.Cell Int, Ok s →
      ∃ s', l.foldlM (fun s o => (gridAt .serial g d (shift (g.position m) o)).bind fun spin => Outcome.ok (Sparse.update s spin fun _ => 1)) s = .ok s' ∧ Ok s' ∧
        ∀ k, k ∈ keys s' ↔ k ∈ keys s ∨ ∃ o ∈ l, d (nbr g o m) = k := by
    intro l
    induction l with
    | nil => intro _ s hs; exact ⟨s, rfl, hs, fun k => by simp⟩
    | cons o l ih =>
      intro hl s hs
      have hg := Stencil.gridAt_ok (touches ht (hl o (by simp)) (n := (m : Int)) (by omega) (by omega)) d
      obtain ⟨s', e, h1, h2⟩ := ih (fun o' ho' => hl o' (by simp [ho'])) (Sparse.update s (d (nbr g o m)) fun _ => 1) (hs.update _ _)
      refine ⟨s', ?_, h1, fun k => ?_⟩
      · rw [List.foldlM_cons, hg]; exact e
      · rw [h2, keys_update]
        constructor
        · rintro (h | ⟨o', ho', h⟩)
          · split_ifs at h with hk
            · exact Or.inl h
            · rw [List.mem_append, List.mem_singleton] at h
              rcases h with h | h
              · exact Or.inl h
              · exact Or.inr ⟨o, by simp, h.symm⟩
          · exact Or.inr ⟨o', by simp [ho'], h⟩
        · rintro (h | ⟨o', ho', h⟩)
          · left; split_ifs with hk
            · exact h
            · exact List.mem_append_left _ h
          · rw [List.mem_cons] at ho'
            rcases ho' with rfl | ho'
            · left; split_ifs with hk
              · rw [← h]; exact hk
              · simp [h]
            · exact Or.inr ⟨o', ho', h⟩
  obtain ⟨s, e, h1, h2⟩ := key (offsets axes) (fun o ho => ((mem_offsets hn).1 ho).1) [] (by simp [Ok, keys])
  exact ⟨s, e, h1, fun k => by rw [h2]; simp [keys]⟩

/-- What a flip can do: nothing, or give a grain site the spin of a grain site in its neighbourhood. -/
theorem zenerFlip_cases {g : Shape} (ht : Torus g) (energy : Int → Int → α) (cold : Int → Int → Nat → Bool) (hot : α → Int → Int → Nat → Bool) (d : Int → Int) (r : Nat × Nat × Nat) :
    ∃ d', zenerFlip .serial g energy cold hot d r = .ok d' ∧ (d' = d ∨ ∃ m : Nat, m < g.nodes.toNat ∧ ∃ o ∈ offsets (List.range g.dim), d m ≠ 0 ∧ d (nbr g o m) ≠ 0 ∧
      d (nbr g o m) ≠ d m ∧ d' = Function.update d (m : Int) (d (nbr g o m)) ∧
      ∃ dE, energyChange .serial g energy d (List.range g.dim) (g.position m) (d m) (d (nbr g o m)) = .ok dE ∧ (dE ≤ 0 ∨ hot dE (d m) (d (nbr g o m)) r.2.2 = true)) := by
  have hpos := nodes_pos ht
  have hm := Nat.mod_lt r.1 hpos
  generalize hmm : r.1 % g.nodes.toNat = m at hm
  have hc := cell_ok ht hm
  have hd : deref g d (g.atNode .serial (m : Int)) = .ok (d m) := if_pos hc
  have hst : ∀ v, store g d (g.atNode .serial (m : Int)) v = .ok (Function.update d (m : Int) v) := fun v => if_pos hc
  unfold zenerFlip
  rw [if_neg (by omega), hmm]
  dsimp only
  rw [hd, Outcome.ok_bind]
  by_cases h0 : d m = 0
  · rw [if_neg (by simp [h0])]
    exact ⟨d, rfl, Or.inl rfl⟩
  rw [if_pos h0]
  obtain ⟨s, hs, -, hk⟩ := near_spec ht d (axes := List.range g.dim) List.nodup_range hm
  rw [hs, Outcome.ok_bind]
  have hlen : 0 < s.length := by
    have : d (nbr g (fun _ => 0) m) ∈ keys s := (hk _).2 ⟨_, (mem_offsets List.nodup_range).2 ⟨near_zero, fun _ _ => rfl⟩, rfl⟩
    have := List.length_pos_of_mem this
    rwa [keys, List.length_map] at this
  have hi := Nat.mod_lt r.2.1 hlen
  rw [List.getElem?_eq_getElem hi]
  dsimp only
  have hmem : s[r.2.1 % s.length].1 ∈ keys s := List.mem_map_of_mem (List.getElem_mem hi)
  generalize s[r.2.1 % s.length].1 = spin2 at hmem
  obtain ⟨o, ho, rfl⟩ := (hk _).1 hmem
  by_cases hne : d m ≠ d (nbr g o m) ∧ d (nbr g o m) ≠ 0
  · rw [if_pos hne]
    obtain ⟨dE, hE⟩ : ∃ dE, energyChange .serial g energy d (List.range g.dim) (g.position m) (d m) (d (nbr g o m)) = .ok dE :=
      ⟨_, boxSum_eq ht List.nodup_range d (fun spin => energy spin _ - energy spin (d m)) (by omega) (by omega) _⟩
    rw [hE, Outcome.ok_bind, hst]
    by_cases h1 : dE ≤ 0
    · rw [if_pos h1]
      by_cases h2 : cold (d m) (d (nbr g o m)) r.2.2 = true
      · rw [if_pos h2]; exact ⟨_, rfl, Or.inr ⟨m, hm, o, ho, h0, hne.2, Ne.symm hne.1, rfl, dE, hE, Or.inl h1⟩⟩
      · rw [if_neg h2]; exact ⟨_, rfl, Or.inl rfl⟩
    · rw [if_neg h1]
      by_cases h2 : hot dE (d m) (d (nbr g o m)) r.2.2 = true
      · rw [if_pos h2]; exact ⟨_, rfl, Or.inr ⟨m, hm, o, ho, h0, hne.2, Ne.symm hne.1, rfl, dE, hE, Or.inr h2⟩⟩
      · rw [if_neg h2]; exact ⟨_, rfl, Or.inl rfl⟩
  · rw [if_neg hne]; exact ⟨_, rfl, Or.inl rfl⟩

/-- **C53.** Any run, whatever is drawn, has no undefined behaviour, leaves the particles where they are (no particle site becomes a grain, no grain site a particle), and every
spin afterwards is one that was on the grid before. -/
theorem zener_states {g : Shape} (ht : Torus g) (energy : Int → Int → α) (cold : Int → Int → Nat → Bool) (hot : α → Int → Int → Nat → Bool) (draws : List (Nat × Nat × Nat)) (d : Int → Int) :
    ∃ d', zenerRun .serial g energy cold hot draws d = .ok d' ∧ (∀ n : Nat, n < g.nodes.toNat → (d' n = 0 ↔ d n = 0)) ∧
      (∀ n : Nat, n < g.nodes.toNat → ∃ k : Nat, k < g.nodes.toNat ∧ d' n = d k) ∧ ∀ p : Int, (∀ n : Nat, n < g.nodes.toNat → p ≠ n) → d' p = d p := by
  induction draws generalizing d with
  | nil => exact ⟨d, rfl, fun _ _ => Iff.rfl, fun n hn => ⟨n, hn, rfl⟩, fun _ _ => rfl⟩
  | cons r draws ih =>
    obtain ⟨d1, e, h⟩ := zenerFlip_cases ht energy cold hot d r
    have h1 : (∀ n : Nat, n < g.nodes.toNat → (d1 n = 0 ↔ d n = 0)) ∧ (∀ n : Nat, n < g.nodes.toNat → ∃ k : Nat, k < g.nodes.toNat ∧ d1 n = d k) ∧
        ∀ p : Int, (∀ n : Nat, n < g.nodes.toNat → p ≠ n) → d1 p = d p := by
      rcases h with rfl | ⟨m, hm, o, ho, h0, h2, -, rfl, -⟩
      · exact ⟨fun _ _ => Iff.rfl, fun n hn => ⟨n, hn, rfl⟩, fun _ _ => rfl⟩
      · obtain ⟨a, b, -⟩ := nbr_spec ht ((mem_offsets List.nodup_range).1 ho).1 (n := (m : Int)) (by omega) (by omega)
        refine ⟨fun n hn => ?_, fun n hn => ?_, fun p hp => Function.update_of_ne (hp m hm) _ _⟩
        · by_cases e : (n : Int) = m
          · rw [e, Function.update_self]; simp [h0, h2]
          · rw [Function.update_of_ne e]
        · by_cases e : (n : Int) = m
          · rw [e, Function.update_self]
            exact ⟨(nbr g o m).toNat, by omega, by rw [Int.toNat_of_nonneg a]⟩
          · rw [Function.update_of_ne e]; exact ⟨n, hn, rfl⟩
    obtain ⟨d', e', i1, i2, i3⟩ := ih d1
    refine ⟨d', ?_, fun n hn => (i1 n hn).trans (h1.1 n hn), fun n hn => ?_, fun p hp => (i3 p hp).trans (h1.2.2 p hp)⟩
    · unfold zenerRun at e' ⊢
      rw [List.foldlM_cons, e]; exact e'
    · obtain ⟨k, hk, ek⟩ := i2 n hn
      obtain ⟨l, hl, el⟩ := h1.2.1 k hk
      exact ⟨l, hl, ek.trans el⟩

/-- **C53.** Without thermal acceptance no run raises the total boundary energy, whatever the (symmetric) energies and mobilities. -/
theorem zener_descends [IsStrictOrderedRing α] {g : Shape} (ht : Torus g) (hside : ∀ j < g.dim, 2 ≤ g.x1 j - g.x0 j) {energy : Int → Int → α} (hsym : ∀ a b, energy a b = energy b a)
    (hz : ∀ a, energy a a = 0) (cold : Int → Int → Nat → Bool) (draws : List (Nat × Nat × Nat)) (d : Int → Int) :
    ∃ d', zenerRun .serial g energy cold (fun _ _ _ _ => false) draws d = .ok d' ∧
      interaction g (List.range g.dim) energy d' ≤ interaction g (List.range g.dim) energy d := by
  induction draws generalizing d with
  | nil => exact ⟨d, rfl, le_refl _⟩
  | cons r draws ih =>
    obtain ⟨d1, e, h⟩ := zenerFlip_cases ht energy cold (fun _ _ _ _ => false) d r
    obtain ⟨d', e', h'⟩ := ih d1
    refine ⟨d', ?_, le_trans h' ?_⟩
    · unfold zenerRun at e' ⊢
      rw [List.foldlM_cons, e]; exact e'
    · rcases h with rfl | ⟨m, hm, o, ho, -, -, -, rfl, dE, hE, hle⟩
      · exact le_refl _
      · obtain ⟨s, hs, hd⟩ := energyChange_spec ht hside hsym hz d hm (d (nbr g o m))
        have : s = dE := by rw [hE] at hs; injection hs with hs; exact hs.symm
        subst this
        rcases hle with hle | hle
        · linarith
        · exact absurd hle (by simp)

end

/-- **C53.** The energies of `anisotropy.hpp` (C45) are of the kind required. -/
theorem table_energy_ok (history : List (Int × Int)) :
    let energy := fun i j => (Anisotropy.lookup Anisotropy.one (Anisotropy.calls Anisotropy.one (fun _ _ => (0 : ℚ)) history) i j).1
    (∀ a b, energy a b = energy b a) ∧ ∀ a, energy a a = 0 := by
  intro energy
  have h : ∀ i j, energy i j = if i = j then 0 else 1 := Anisotropy.energy_spec history
  refine ⟨fun a b => by rw [h, h]; simp only [eq_comm], fun a => by rw [h, if_pos rfl]⟩

/-- Two grains and a particle. -/
def grains (p : Int) : Int := if p = 4 then 0 else if p < 9 then 1 else 2

example : zenerFlip .serial (square 5) (fun a b => if a = b then (0 : ℚ) else 1) (fun _ _ _ => true) (fun _ _ _ _ => false) grains (4, 1, 0) = .ok grains := rfl

example : (zenerFlip .serial (square 5) (fun a b => if a = b then (0 : ℚ) else 1) (fun _ _ _ => true) (fun _ _ _ _ => false) grains (8, 2, 0)).bind (fun d => .ok (d 8)) = .ok 2 := by
  decide +kernel

end MMSP.SpinZener
