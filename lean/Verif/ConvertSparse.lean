import Verif.ConvertProps
/-!
# Property C39: the converters from and to sparse grids
-/

namespace MMSP.Convert

open Sparse (keys Ok)

variable {D α : Type} [One D]

/-! ## Monte Carlo to sparse -/

/-- **C39.** `MC2sPF`: every node lists exactly its id, with value 1. Negative ids are kept as well. -/
theorem mc2spf_spec [Zero α] [One α] {g1 : Grid D Int} (hg : g1.shape.ghosts = 0) :
    ∃ g2 : Grid D (Sparse.Cell α), mc2spf g1 = .ok g2 ∧ Default g1 g2 ∧ g2.fields = 0 ∧ ∀ i < size g1, g2.data (i : Nat) = [(g1.data i, 1)] := by
  unfold mc2spf
  exact build_eq g1 0 (fun _ => ([] : Sparse.Cell α)) (f := fun i c => (at1 g1 i).bind fun index => .ok (Sparse.update c index fun _ => 1)) (v := fun i => [(g1.data i, 1)]) (by
    intro i hi
    rw [at1_ok hg hi, Outcome.ok_bind, Sparse.update_nil])

/-! ## Sparse to Monte Carlo -/

/-- The id of a sparse cell: the index of the first entry with the largest value if that is positive, else 0. -/
def SparseMax [LinearOrder α] [Zero α] (c : Sparse.Cell α) (id : Int) : Prop :=
  (∃ k m, c[k]? = some (id, m) ∧ 0 < m ∧ FirstMax (c.map Prod.snd) k) ∨ (id = 0 ∧ ∀ e ∈ c, e.2 ≤ 0)

theorem value_ok {c : Sparse.Cell α} {j : Nat} (h : j < c.length) : Sparse.value c (j : Int) = .ok c[j].2 ∧ Sparse.index c (j : Int) = .ok c[j].1 := by
  unfold Sparse.value Sparse.index
  rw [if_pos (by omega), if_pos (by omega)]
  simp [h]

theorem dominantSparse_spec [LinearOrder α] [Zero α] (c : Sparse.Cell α) : ∃ id, dominantSparse c = .ok id ∧ SparseMax c id := by
  have key : ∀ n ≤ c.length, ∃ (id : Int) (m : α),
      (List.range n).foldlM (fun (a : Int × α) (j : Nat) => (Sparse.value c j).bind fun value =>
        if value > a.2 then (Sparse.index c j).bind fun index => .ok (index, value) else .ok a) ((0 : Int), (0 : α)) = .ok (id, m) ∧
      ((id = 0 ∧ m = 0 ∧ ∀ (j : Nat) (_ : j < c.length), j < n → c[j].2 ≤ 0) ∨
       ∃ k, ∃ h : k < c.length, c[k] = (id, m) ∧ 0 < m ∧ (∀ (j : Nat) (_ : j < c.length), j < n → c[j].2 ≤ m) ∧ ∀ (j : Nat) (_ : j < c.length), j < k → c[j].2 < m) := by
    intro n hn
    induction n with
    | zero => exact ⟨0, 0, rfl, .inl ⟨rfl, rfl, by simp⟩⟩
    | succ n ih =>
      obtain ⟨id, m, h1, h2⟩ := ih (by omega)
      rw [List.range_succ, List.foldlM_append, h1]
      simp only [Outcome.bind_eq, Outcome.ok_bind, List.foldlM_cons, List.foldlM_nil, Outcome.pure_eq]
      have hc : n < c.length := by omega
      rw [(value_ok hc).1, (value_ok hc).2]
      simp only [Outcome.ok_bind]
      by_cases hg : c[n].2 > m
      · refine ⟨c[n].1, c[n].2, by rw [if_pos hg]; rfl, .inr ⟨n, hc, rfl, ?_, fun j hj hjn => ?_, fun j hj hjn => ?_⟩⟩
        · rcases h2 with ⟨-, rfl, -⟩ | ⟨k, hk, _, h, _⟩
          · exact hg
          · exact lt_trans h hg
        · by_cases e : j = n
          · subst e; exact le_rfl
          · rcases h2 with ⟨-, rfl, h⟩ | ⟨k, hk, _, _, h, _⟩ <;> exact le_of_lt (lt_of_le_of_lt (h j hj (by omega)) hg)
        · rcases h2 with ⟨-, rfl, h⟩ | ⟨k, hk, _, _, h, _⟩ <;> exact lt_of_le_of_lt (h j hj (by omega)) hg
      · refine ⟨id, m, by rw [if_neg hg]; rfl, ?_⟩
        rcases h2 with ⟨rfl, rfl, h⟩ | ⟨k, hk, h1, h2, h, h4⟩
        · refine .inl ⟨rfl, rfl, fun j hj hjn => ?_⟩
          by_cases e : j = n
          · subst e; exact not_lt.1 hg
          · exact h j hj (by omega)
        · refine .inr ⟨k, hk, h1, h2, fun j hj hjn => ?_, h4⟩
          by_cases e : j = n
          · subst e; exact not_lt.1 hg
          · exact h j hj (by omega)
  obtain ⟨id, m, h1, h2⟩ := key c.length le_rfl
  refine ⟨id, by unfold dominantSparse; rw [h1]; rfl, ?_⟩
  rcases h2 with ⟨rfl, -, h⟩ | ⟨k, hk, e, h2, h3, h4⟩
  · refine .inr ⟨rfl, fun e he => ?_⟩
    obtain ⟨j, hj, rfl⟩ := List.getElem_of_mem he
    exact h j hj hj
  · refine .inl ⟨k, m, by rw [List.getElem?_eq_getElem hk, e], h2, m, by simp [List.getElem?_eq_getElem hk, e], fun a ha => ?_, fun j hj a ha => ?_⟩
    · obtain ⟨x, hx, rfl⟩ := List.mem_map.1 ha
      obtain ⟨j, hj, rfl⟩ := List.getElem_of_mem hx
      exact h3 j hj hj
    · have hjc : j < c.length := by omega
      rw [List.getElem?_map, List.getElem?_eq_getElem hjc] at ha
      cases ha
      exact h4 j hjc hj

/-- **C39.** `sPF2MC`: every node gets the id of its first largest positive entry, and 0 if no entry is positive. -/
theorem spf2mc_spec [LinearOrder α] [Zero α] (fresh : Int → Int) {g1 : Grid D (Sparse.Cell α)} (hg : g1.shape.ghosts = 0) :
    ∃ g2, spf2mc fresh g1 = .ok g2 ∧ Default g1 g2 ∧ g2.fields = 1 ∧ ∀ i < size g1, SparseMax (g1.data (i : Nat)) (g2.data i) := by
  obtain ⟨k, hk⟩ := Classical.axiomOfChoice fun i : Nat => dominantSparse_spec (g1.data i)
  unfold spf2mc
  obtain ⟨g2, d1, d2, d3, d4⟩ := build_eq g1 1 fresh (f := fun i _ => (at1 g1 i).bind fun c => dominantSparse c) (v := k) (by
    intro i hi
    rw [at1_ok hg hi, Outcome.ok_bind]; exact (hk i).1)
  exact ⟨g2, d1, d2, d3, fun i hi => by rw [d4 i hi]; exact (hk i).2⟩

theorem sparseMax_single [LinearOrder α] [Zero α] {id id' : Int} {m : α} (hm : 0 < m) (h : SparseMax [(id, m)] id') : id' = id := by
  rcases h with ⟨k, m', h1, -, -⟩ | ⟨-, h⟩
  · cases k with
    | zero => simpa using (congrArg (fun o => o.map Prod.fst) h1).symm
    | succ k => simp at h1
  · exact absurd (h _ (List.mem_singleton_self _)) (not_le.2 hm)

/-- **C39.** Monte Carlo to sparse and back gives every node its id again, whatever the ids. -/
theorem mc_spf_mc [LinearOrder α] [Zero α] [One α] (h01 : (0 : α) < 1) (fresh : Int → Int) {g1 : Grid D Int} (hg : g1.shape.ghosts = 0) :
    ∃ (g2 : Grid D (Sparse.Cell α)) (g3 : Grid D Int), mc2spf g1 = .ok g2 ∧ spf2mc fresh g2 = .ok g3 ∧ Default g1 g3 ∧ ∀ i < size g1, g3.data (i : Nat) = g1.data i := by
  obtain ⟨g2, a1, a2, a3, a4⟩ := mc2spf_spec (α := α) hg
  have hs := size_eq a2
  obtain ⟨g3, b1, b2, b3, b4⟩ := spf2mc_spec fresh (g1 := g2) a2.ghosts
  refine ⟨g2, g3, a1, b1, ⟨b2.dim.trans a2.dim, b2.lower.trans a2.lower, b2.upper.trans a2.upper, b2.ghosts, b2.dx, b2.bc⟩, fun i hi => ?_⟩
  have := b4 i (by omega)
  rw [a4 i hi] at this
  exact sparseMax_single h01 this

/-! ## Phase field to sparse -/

/-- The entries of a vector above the threshold, in order of their index. -/
structure Above [LinearOrder α] (eps : α) (v : List α) (c : Sparse.Cell α) : Prop where
  mem : ∀ j x, (j, x) ∈ c ↔ ∃ k : Nat, j = k ∧ v[k]? = some x ∧ eps < x
  sorted : (keys c).Pairwise (· < ·)

theorem update_new [Zero α] {c : Sparse.Cell α} {i : Int} (h : i ∉ keys c) (f : α → α) : Sparse.update c i f = c ++ [(i, f 0)] := by
  induction c with
  | nil => rfl
  | cons e c ih =>
    rw [Sparse.update_cons, if_neg (by intro e'; exact h (by simp [keys, e'])), ih (by intro h'; exact h (by simp [keys] at h' ⊢; exact .inr h'))]
    rfl

theorem pick_spec [LinearOrder α] [Zero α] (eps : α) (v : List α) : ∃ c, pick eps (v.length : Int) v [] = .ok c ∧ Above eps v c := by
  have key : ∀ n ≤ v.length, ∃ c : Sparse.Cell α,
      (List.range n).foldlM (fun c (j : Nat) => (vecGet v j).bind fun value => .ok (if value > eps then Sparse.update c (j : Nat) fun _ => value else c)) ([] : Sparse.Cell α) = .ok c ∧
      (∀ j x, (j, x) ∈ c ↔ ∃ k : Nat, k < n ∧ j = k ∧ v[k]? = some x ∧ eps < x) ∧ (keys c).Pairwise (· < ·) := by
    intro n hn
    induction n with
    | zero => exact ⟨[], rfl, by simp, by simp [keys]⟩
    | succ n ih =>
      obtain ⟨c, h1, h2, h3⟩ := ih (by omega)
      rw [List.range_succ, List.foldlM_append, h1]
      simp only [Outcome.bind_eq, Outcome.ok_bind, List.foldlM_cons, List.foldlM_nil, Outcome.pure_eq]
      have hn' : v[n]? = some v[n] := List.getElem?_eq_getElem (by omega)
      rw [vecGet_ok hn']
      simp only [Outcome.ok_bind]
      have hlt : ∀ j ∈ keys c, j < (n : Int) := by
        intro j hj
        obtain ⟨⟨j', x⟩, he, rfl⟩ := List.mem_map.1 hj
        obtain ⟨k, hk, rfl, _⟩ := (h2 j' x).1 he
        show (k : Int) < n; omega
      by_cases hg : v[n] > eps
      · rw [if_pos hg, update_new (fun h => absurd (hlt _ h) (lt_irrefl _))]
        refine ⟨_, rfl, fun j x => ?_, ?_⟩
        · rw [List.mem_append, h2, List.mem_singleton]
          constructor
          · rintro (⟨k, a, b⟩ | e)
            · exact ⟨k, by omega, b⟩
            · cases e; exact ⟨n, by omega, rfl, hn', hg⟩
          · rintro ⟨k, a, rfl, b, e⟩
            by_cases ek : k = n
            · subst ek; rw [hn'] at b; cases b; exact .inr rfl
            · exact .inl ⟨k, by omega, rfl, b, e⟩
        · show (List.map Prod.fst (c ++ [_])).Pairwise _
          rw [List.map_append, List.pairwise_append]
          refine ⟨h3, by simp, fun a ha b hb => ?_⟩
          rw [List.map_cons, List.map_nil, List.mem_singleton] at hb
          subst hb
          exact hlt a ha
      · rw [if_neg hg]
        refine ⟨_, rfl, fun j x => ?_, h3⟩
        rw [h2]
        constructor
        · rintro ⟨k, a, b⟩; exact ⟨k, by omega, b⟩
        · rintro ⟨k, a, rfl, b, e⟩
          by_cases ek : k = n
          · subst ek; rw [hn'] at b; cases b; exact absurd e hg
          · exact ⟨k, by omega, rfl, b, e⟩
  obtain ⟨c, h1, h2, h3⟩ := key v.length le_rfl
  refine ⟨c, by unfold pick; rw [Int.toNat_natCast]; exact h1, fun j x => ?_, h3⟩
  rw [h2]
  constructor
  · rintro ⟨k, a, b⟩; exact ⟨k, b⟩
  · rintro ⟨k, a, b, e⟩; exact ⟨k, (List.getElem?_eq_some_iff.1 b).1, a, b, e⟩

/-- **C39.** `PF2sPF`: every node keeps exactly the fields above the threshold, in order. -/
theorem pf2spf_spec [LinearOrder α] [Zero α] (eps : α) {g1 : Grid D (List α)} (hg : g1.shape.ghosts = 0)
    (h : ∀ i < size g1, ((g1.data (i : Nat)).length : Int) = g1.fields) :
    ∃ g2, pf2spf eps g1 = .ok g2 ∧ Default g1 g2 ∧ g2.fields = 0 ∧ ∀ i < size g1, Above eps (g1.data (i : Nat)) (g2.data i) := by
  obtain ⟨c, hc⟩ := Classical.axiomOfChoice fun i : Nat => pick_spec eps (g1.data i)
  unfold pf2spf
  obtain ⟨g2, d1, d2, d3, d4⟩ := build_eq g1 0 (fun _ => ([] : Sparse.Cell α)) (f := fun i c => (at1 g1 i).bind fun v => pick eps g1.fields v c) (v := c) (by
    intro i hi
    rw [at1_ok hg hi, Outcome.ok_bind, ← h i hi]; exact (hc i).1)
  exact ⟨g2, d1, d2, d3, fun i hi => by rw [d4 i hi]; exact (hc i).2⟩

/-! ## Sparse to phase field -/

/-- All indices can be used as fields. -/
def Fits (c : Sparse.Cell α) : Prop := Ok c ∧ ∀ j ∈ keys c, 0 ≤ j ∧ j < 2 ^ 31 - 1

theorem largestIn (c : Sparse.Cell α) {m0 : Int} (h0 : 0 ≤ m0) :
    ∃ m, (List.range c.length).foldlM (fun fields (j : Nat) => (Sparse.index c j).bind fun index => .ok (if index > fields then index else fields)) m0 = .ok m ∧
      m0 ≤ m ∧ (∀ j ∈ keys c, j ≤ m) ∧ (m = m0 ∨ m ∈ keys c) := by
  have key : ∀ n ≤ c.length, ∃ m,
      (List.range n).foldlM (fun fields (j : Nat) => (Sparse.index c j).bind fun index => .ok (if index > fields then index else fields)) m0 = .ok m ∧
      m0 ≤ m ∧ (∀ (j : Nat) (_ : j < c.length), j < n → c[j].1 ≤ m) ∧ (m = m0 ∨ m ∈ keys c) := by
    intro n hn
    induction n with
    | zero => exact ⟨m0, rfl, le_rfl, by simp, .inl rfl⟩
    | succ n ih =>
      obtain ⟨m, h1, h2, h3, h4⟩ := ih (by omega)
      rw [List.range_succ, List.foldlM_append, h1]
      simp only [Outcome.bind_eq, Outcome.ok_bind, List.foldlM_cons, List.foldlM_nil, Outcome.pure_eq]
      have hc : n < c.length := by omega
      rw [(value_ok hc).2]
      simp only [Outcome.ok_bind]
      by_cases hg : c[n].1 > m
      · refine ⟨_, by rw [if_pos hg], by omega, fun j hj hjn => ?_, .inr (List.mem_map.2 ⟨c[n], List.getElem_mem _, rfl⟩)⟩
        by_cases e : j = n
        · subst e; exact le_rfl
        · have := h3 j hj (by omega); omega
      · refine ⟨_, by rw [if_neg hg], h2, fun j hj hjn => ?_, h4⟩
        by_cases e : j = n
        · subst e; omega
        · exact h3 j hj (by omega)
  obtain ⟨m, h1, h2, h3, h4⟩ := key c.length le_rfl
  refine ⟨m, h1, h2, fun j hj => ?_, h4⟩
  obtain ⟨e, he, rfl⟩ := List.mem_map.1 hj
  obtain ⟨k, hk, rfl⟩ := List.getElem_of_mem he
  exact h3 k hk hk

theorem largestIndex_ok {g1 : Grid D (Sparse.Cell α)} (hg : g1.shape.ghosts = 0) :
    ∃ m, largestIndex g1 = .ok m ∧ 0 ≤ m ∧ (∀ i < size g1, ∀ j ∈ keys (g1.data (i : Nat)), j ≤ m) ∧ (m = 0 ∨ ∃ i < size g1, m ∈ keys (g1.data (i : Nat))) := by
  unfold largestIndex
  have key : ∀ n ≤ size g1, ∃ m, (List.range n).foldlM (fun fields (i : Nat) => (at1 g1 i).bind fun c =>
        (List.range c.length).foldlM (fun fields (j : Nat) => (Sparse.index c j).bind fun index => .ok (if index > fields then index else fields)) fields) (0 : Int) = .ok m ∧
      0 ≤ m ∧ (∀ i < n, ∀ j ∈ keys (g1.data (i : Nat)), j ≤ m) ∧ (m = 0 ∨ ∃ i < n, m ∈ keys (g1.data (i : Nat))) := by
    intro n hn
    induction n with
    | zero => exact ⟨0, rfl, le_rfl, by simp, .inl rfl⟩
    | succ n ih =>
      obtain ⟨m, h1, h2, h3, h4⟩ := ih (by omega)
      rw [List.range_succ, List.foldlM_append, h1]
      simp only [Outcome.bind_eq, Outcome.ok_bind, List.foldlM_cons, List.foldlM_nil, Outcome.pure_eq]
      rw [at1_ok hg (by omega)]
      simp only [Outcome.ok_bind]
      obtain ⟨m', a1, a2, a3, a4⟩ := largestIn (g1.data n) h2
      rw [a1]
      refine ⟨m', rfl, by omega, fun i hi j hj => ?_, ?_⟩
      · by_cases e : i = n
        · subst e; exact a3 j hj
        · have := h3 i (by omega) j hj; omega
      · rcases a4 with rfl | a4
        · rcases h4 with h4 | ⟨i, hi, h4⟩
          · exact .inl h4
          · exact .inr ⟨i, by omega, h4⟩
        · exact .inr ⟨n, by omega, a4⟩
  exact key _ le_rfl

theorem scatter_spec [Zero α] {s : Sparse.Cell α} {n : Nat} (hs : Ok s) (h : ∀ j ∈ keys s, 0 ≤ j ∧ j < n) :
    ∃ v, scatter s (List.replicate n 0) = .ok v ∧ v.length = n ∧ ∀ j < n, v[j]? = some (Sparse.get s j) := by
  have key : ∀ (k : Nat), k ≤ s.length → ∃ v, (List.range k).foldlM (fun c (j : Nat) => (Sparse.index s j).bind fun index => (Sparse.value s j).bind fun value => vecSet c index value)
        (List.replicate n (0 : α)) = .ok v ∧ v.length = n ∧
      (∀ j < n, (∀ (l : Nat) (_ : l < s.length), l < k → s[l].1 ≠ j) → v[j]? = some 0) ∧ ∀ (l : Nat) (_ : l < s.length), l < k → v[s[l].1.toNat]? = some s[l].2 := by
    intro k hk
    induction k with
    | zero => exact ⟨_, rfl, by simp, fun j hj _ => by simp [hj], by simp⟩
    | succ k ih =>
      obtain ⟨v, h1, h2, h3, h4⟩ := ih (by omega)
      rw [List.range_succ, List.foldlM_append, h1]
      simp only [Outcome.bind_eq, Outcome.ok_bind, List.foldlM_cons, List.foldlM_nil, Outcome.pure_eq]
      have hc : k < s.length := by omega
      rw [(value_ok hc).1, (value_ok hc).2]
      simp only [Outcome.ok_bind]
      have hin := h s[k].1 (List.mem_map.2 ⟨s[k], List.getElem_mem _, rfl⟩)
      obtain ⟨p, hp⟩ := Int.eq_ofNat_of_zero_le hin.1
      rw [hp, vecSet_ok (by omega)]
      refine ⟨_, rfl, by simpa using h2, fun j hj hne => ?_, fun l hl hlk => ?_⟩
      · have := hne k hc (by omega)
        rw [List.getElem?_set_ne (by intro e; exact this (by omega))]
        exact h3 j hj fun l hl hlk => hne l hl (by omega)
      · by_cases e : l = k
        · subst e
          rw [hp, Int.toNat_natCast, List.getElem?_set_self (by omega)]
        · have hne : s[l].1 ≠ s[k].1 := by
            intro e'
            have hnd : (keys s).Nodup := hs
            have := (List.Nodup.getElem_inj_iff hnd (i := l) (hi := by simpa [keys] using hl) (j := k) (hj := by simpa [keys] using hc)).1 (by simpa [keys] using e')
            exact e this
          have hl0 := h s[l].1 (List.mem_map.2 ⟨s[l], List.getElem_mem _, rfl⟩)
          rw [List.getElem?_set_ne (by omega)]
          exact h4 l hl (by omega)
  obtain ⟨v, h1, h2, h3, h4⟩ := key s.length le_rfl
  refine ⟨v, h1, h2, fun j hj => ?_⟩
  by_cases hm : (j : Int) ∈ keys s
  · obtain ⟨e, he, hj'⟩ := List.mem_map.1 hm
    obtain ⟨l, hl, rfl⟩ := List.getElem_of_mem he
    have := h4 l hl hl
    rw [hj', Int.toNat_natCast] at this
    rw [this, ← hj', Sparse.get_of_mem hs he]
  · rw [Sparse.get_of_not_mem hm]
    refine h3 j hj fun l hl _ e => hm ?_
    rw [← e]
    exact List.mem_map.2 ⟨s[l], List.getElem_mem _, rfl⟩

/-- **C39.** `sPF2PF` in one and two dimensions: every node gets the vector of the values of its fields, unlisted fields being 0. -/
theorem spf2pf_spec [Zero α] {fresh : Int → Int → List α} (hfresh : ∀ f i, (fresh f i).length = f.toNat) {g1 : Grid D (Sparse.Cell α)} (hg : g1.shape.ghosts = 0)
    (hdim : g1.shape.dim ≠ 3) (h : ∀ i < size g1, Fits (g1.data (i : Nat))) :
    ∃ g2, spf2pf fresh g1 = .ok g2 ∧ Default g1 g2 ∧ 1 ≤ g2.fields ∧ (∀ i < size g1, ∀ j ∈ keys (g1.data (i : Nat)), j < g2.fields) ∧
      (g2.fields = 1 ∨ ∃ i < size g1, g2.fields - 1 ∈ keys (g1.data (i : Nat))) ∧
      ∀ i < size g1, (g2.data (i : Nat)).length = g2.fields.toNat ∧ ∀ j < g2.fields.toNat, (g2.data i)[j]? = some (Sparse.get (g1.data i) j) := by
  obtain ⟨m, h1, h2, h3, h4⟩ := largestIndex_ok hg
  have hm : m + 1 < 2 ^ 31 := by
    rcases h4 with h4 | ⟨i, hi, h4⟩
    · omega
    · have := (h i hi).2 m h4; omega
  have hsc : ∀ i : Nat, ∃ v : List α, i < size g1 → scatter (g1.data i) (List.replicate (m + 1).toNat 0) = .ok v ∧ v.length = (m + 1).toNat ∧
      ∀ j < (m + 1).toNat, v[j]? = some (Sparse.get (g1.data i) j) := by
    intro i
    by_cases hi : i < size g1
    · obtain ⟨v, hv⟩ := scatter_spec (n := (m + 1).toNat) (h i hi).1 fun j hj => ⟨((h i hi).2 j hj).1, by have := h3 i hi j hj; omega⟩
      exact ⟨v, fun _ => hv⟩
    · exact ⟨[], fun h => absurd h hi⟩
  obtain ⟨v, hv⟩ := Classical.axiomOfChoice hsc
  unfold spf2pf plusOne
  rw [h1, Outcome.ok_bind, if_pos hm, Outcome.ok_bind, if_neg hdim]
  obtain ⟨g2, d1, d2, d3, d4⟩ := build_eq g1 (m + 1) (fresh (m + 1))
    (f := fun i c => (clear (m + 1) c).bind fun c => (at1 g1 i).bind fun s => scatter s c) (v := v) (by
      intro i hi
      have hvi := (hv i hi).1
      obtain ⟨n, hn⟩ := Int.eq_ofNat_of_zero_le (show 0 ≤ m + 1 by omega)
      have hl := hfresh (m + 1) i
      rw [hn] at hl hvi ⊢
      rw [clear_eq (by simpa using hl), Outcome.ok_bind, at1_ok hg hi, Outcome.ok_bind]
      exact hvi)
  refine ⟨g2, d1, d2, by omega, fun i hi j hj => by have := h3 i hi j hj; omega, ?_, fun i hi => ?_⟩
  · rcases h4 with h4 | ⟨i, hi, h4⟩
    · exact .inl (by omega)
    · exact .inr ⟨i, hi, by rw [d3]; simpa using h4⟩
  · rw [d4 i hi, d3]
    exact (hv i hi).2

/-- **C39.** In three dimensions `sPF2PF` writes beyond the end of its output grid as soon as there are two planes. -/
theorem spf2pf_3d [Zero α] {fresh : Int → Int → List α} (hfresh : ∀ f i, (fresh f i).length = f.toNat) {g1 : Grid D (Sparse.Cell α)} (hg : g1.shape.ghosts = 0)
    (hdim : g1.shape.dim = 3) (hx : g1.shape.x0 0 < g1.shape.x1 0) (hy : g1.shape.x0 1 < g1.shape.x1 1) (hz : g1.shape.x0 2 + 1 < g1.shape.x1 2)
    (h : ∀ i < size g1, Fits (g1.data (i : Nat))) : spf2pf fresh g1 = .ub := by
  obtain ⟨m, h1, h2, h3, h4⟩ := largestIndex_ok hg
  have hm : m + 1 < 2 ^ 31 := by
    rcases h4 with h4 | ⟨i, hi, h4⟩
    · omega
    · have := (h i hi).2 m h4; omega
  have hsc : ∀ i : Nat, ∃ v : List α, i < size g1 → scatter (g1.data i) (List.replicate (m + 1).toNat 0) = .ok v := by
    intro i
    by_cases hi : i < size g1
    · obtain ⟨v, hv⟩ := scatter_spec (n := (m + 1).toNat) (h i hi).1 fun j hj => ⟨((h i hi).2 j hj).1, by have := h3 i hi j hj; omega⟩
      exact ⟨v, fun _ => hv.1⟩
    · exact ⟨[], fun h => absurd h hi⟩
  obtain ⟨v, hv⟩ := Classical.axiomOfChoice hsc
  unfold spf2pf plusOne
  rw [h1, Outcome.ok_bind, if_pos hm, Outcome.ok_bind, if_pos hdim]
  have n2 : (make (D := D) 2 (m + 1) g1.shape.x0 g1.shape.x1 (fresh (m + 1))).shape.nodes = (g1.shape.x1 1 - g1.shape.x0 1) * (g1.shape.x1 0 - g1.shape.x0 0) := by
    simp [make, Shape.nodes, Shape.xx, MMSP.slice]
  have n3 : g1.shape.nodes = (g1.shape.x1 1 - g1.shape.x0 1) * (g1.shape.x1 2 - g1.shape.x0 2) * (g1.shape.x1 0 - g1.shape.x0 0) := by
    simp [Shape.nodes, Shape.xx, MMSP.slice, hdim, Finset.prod_Ico_succ_top]
  have hpos : 0 < (g1.shape.x1 1 - g1.shape.x0 1) * (g1.shape.x1 0 - g1.shape.x0 0) := mul_pos (by omega) (by omega)
  have hlt : (g1.shape.x1 1 - g1.shape.x0 1) * (g1.shape.x1 0 - g1.shape.x0 0) < g1.shape.nodes := by
    rw [n3, mul_right_comm]
    exact lt_mul_of_one_lt_right hpos (by omega)
  have hk : (make (D := D) 2 (m + 1) g1.shape.x0 g1.shape.x1 (fresh (m + 1))).shape.nodes.toNat < g1.shape.nodes.toNat := by rw [n2]; omega
  refine (congrArg (fun o => Outcome.bind o _) (eachNode_ub (g2 := (make (D := D) 2 (m + 1) g1.shape.x0 g1.shape.x1 (fresh (m + 1))).shape) (n := g1.shape.nodes.toNat)
    (k := (make (D := D) 2 (m + 1) g1.shape.x0 g1.shape.x1 (fresh (m + 1))).shape.nodes.toNat) rfl hk le_rfl
    (f := fun i c => (clear (m + 1) c).bind fun c => (at1 g1 i).bind fun s => scatter s c) (out := fresh (m + 1)) (v := v) ?_ (.inr rfl))).trans rfl
  intro i hi
  have hi' : i < size g1 := by unfold size; omega
  have hvi := hv i hi'
  obtain ⟨n, hn⟩ := Int.eq_ofNat_of_zero_le (show 0 ≤ m + 1 by omega)
  have hl := hfresh (m + 1) i
  rw [hn] at hl hvi ⊢
  rw [clear_eq (by simpa using hl), Outcome.ok_bind, at1_ok hg hi', Outcome.ok_bind]
  exact hvi

/-! ## Round trips through the phase field -/

/-- **C39.** Sparse to phase field and back keeps, with their values, exactly the entries above the threshold. -/
theorem spf_pf_spf [LinearOrder α] [Zero α] {eps : α} (heps : 0 ≤ eps) {fresh : Int → Int → List α} (hfresh : ∀ f i, (fresh f i).length = f.toNat)
    {g1 : Grid D (Sparse.Cell α)} (hg : g1.shape.ghosts = 0) (hdim : g1.shape.dim ≠ 3) (h : ∀ i < size g1, Fits (g1.data (i : Nat))) :
    ∃ g2 g3, spf2pf fresh g1 = .ok g2 ∧ pf2spf eps g2 = .ok g3 ∧ Default g1 g3 ∧
      ∀ i < size g1, (∀ e, e ∈ g3.data (i : Nat) ↔ e ∈ g1.data (i : Nat) ∧ eps < e.2) ∧ (keys (g3.data (i : Nat))).Pairwise (· < ·) := by
  obtain ⟨g2, a1, a2, a3, a4, -, a6⟩ := spf2pf_spec hfresh hg hdim h
  have hs := size_eq a2
  obtain ⟨g3, b1, b2, -, b4⟩ := pf2spf_spec eps (g1 := g2) a2.ghosts (by intro i hi; rw [(a6 i (by omega)).1]; omega)
  refine ⟨g2, g3, a1, b1, ⟨b2.dim.trans a2.dim, b2.lower.trans a2.lower, b2.upper.trans a2.upper, b2.ghosts, b2.dx, b2.bc⟩, fun i hi => ?_⟩
  have hb := b4 i (by omega)
  obtain ⟨hok, hin⟩ := h i hi
  refine ⟨fun e => ?_, hb.sorted⟩
  rw [show e = (e.1, e.2) from rfl, hb.mem]
  constructor
  · rintro ⟨k, hk, hv, he⟩
    have hlt : k < (g2.data i).length := (List.getElem?_eq_some_iff.1 hv).1
    rw [(a6 i hi).2 k (by rw [← (a6 i hi).1]; exact hlt)] at hv
    injection hv with hv
    refine ⟨?_, he⟩
    by_cases hm : (k : Int) ∈ keys (g1.data i)
    · obtain ⟨x, hx, hxk⟩ := List.mem_map.1 hm
      rw [← hxk, Sparse.get_of_mem hok hx] at hv
      have : e = x := by
        cases e; cases x
        simp only at hk hv hxk ⊢
        rw [hk, hv, hxk]
      show (e.1, e.2) ∈ _
      rw [this]; exact hx
    · rw [Sparse.get_of_not_mem hm] at hv
      rw [← hv] at he
      exact absurd he (not_lt.2 heps)
  · rintro ⟨hm, he⟩
    have hk : e.1 ∈ keys (g1.data i) := List.mem_map.2 ⟨e, hm, rfl⟩
    obtain ⟨k, hk'⟩ := Int.eq_ofNat_of_zero_le (hin _ hk).1
    refine ⟨k, hk', ?_, he⟩
    have := a4 i hi _ hk
    rw [(a6 i hi).2 k (by omega), ← hk', Sparse.get_of_mem hok hm]

/-- **C39.** Going through the phase field gives the same Monte Carlo grid as the direct conversion, at every node whose largest value is positive and belongs to
one field only. -/
theorem spf_pf_mc [LinearOrder α] [Zero α] {fresh : Int → Int → List α} (hfresh : ∀ f i, (fresh f i).length = f.toNat) (fresh' : Int → Int)
    {g1 : Grid D (Sparse.Cell α)} (hg : g1.shape.ghosts = 0) (hdim : g1.shape.dim ≠ 3) (h : ∀ i < size g1, Fits (g1.data (i : Nat))) :
    ∃ g2 g3 g4, spf2pf fresh g1 = .ok g2 ∧ pf2mc fresh' g2 = .ok g3 ∧ spf2mc fresh' g1 = .ok g4 ∧
      ∀ i < size g1, ∀ e ∈ g1.data (i : Nat), 0 < e.2 → (∀ e' ∈ g1.data (i : Nat), e' ≠ e → e'.2 < e.2) →
        g3.data (i : Nat) = e.1 ∧ g4.data (i : Nat) = e.1 := by
  obtain ⟨g2, a1, a2, a3, a4, -, a6⟩ := spf2pf_spec hfresh hg hdim h
  have hs := size_eq a2
  obtain ⟨g3, b1, b2, -, b4⟩ := pf2mc_spec fresh' (g1 := g2) a2.ghosts a3 (by intro i hi; rw [(a6 i (by omega)).1]; omega)
  obtain ⟨g4, c1, c2, -, c4⟩ := spf2mc_spec fresh' hg
  refine ⟨g2, g3, g4, a1, b1, c1, fun i hi e he hpos hmax => ⟨?_, ?_⟩⟩
  · obtain ⟨hok, hin⟩ := h i hi
    obtain ⟨k, d1, m, d2, d3, d4⟩ := b4 i (by omega)
    have hkey : e.1 ∈ keys (g1.data i) := List.mem_map.2 ⟨e, he, rfl⟩
    obtain ⟨n, hn⟩ := Int.eq_ofNat_of_zero_le (hin _ hkey).1
    have hnf : n < g2.fields.toNat := by have := a4 i hi _ hkey; omega
    have hen : (g2.data i)[n]? = some e.2 := by rw [(a6 i hi).2 n hnf, ← hn, Sparse.get_of_mem hok he]
    have hle : e.2 ≤ m := d3 _ (List.mem_of_getElem? hen)
    have hkl : k < g2.fields.toNat := by rw [← (a6 i hi).1]; exact (List.getElem?_eq_some_iff.1 d2).1
    rw [(a6 i hi).2 k hkl] at d2
    injection d2 with d2
    rw [d1, hn]
    by_contra hne
    by_cases hm : (k : Int) ∈ keys (g1.data i)
    · obtain ⟨x, hx, hxk⟩ := List.mem_map.1 hm
      rw [← hxk, Sparse.get_of_mem hok hx] at d2
      have := hmax x hx (by intro e'; rw [e'] at hxk; exact hne (by omega))
      rw [d2] at this
      exact absurd this (not_lt.2 hle)
    · rw [Sparse.get_of_not_mem hm] at d2
      rw [← d2] at hle
      exact absurd hpos (not_lt.2 hle)
  · rcases c4 i hi with ⟨k, m, d1, d2, m', d3, d4, -⟩ | ⟨-, d⟩
    · rw [List.getElem?_map, d1] at d3
      injection d3 with d3
      have hmem := List.mem_of_getElem? d1
      by_contra hne
      have := hmax _ hmem (by intro e'; exact hne (congrArg Prod.fst e'))
      have h2 := d4 e.2 (List.mem_map.2 ⟨e, he, rfl⟩)
      rw [← d3] at h2
      exact absurd this (not_lt.2 h2)
    · exact absurd hpos (not_lt.2 (d e he))

/-! ## Instances -/

/-- A line of three nodes. -/
def line {T : Type} (data : Int → T) : Grid Int T := ⟨⟨1, fun _ => 0, fun _ => 3, fun _ => .neumann, fun _ => .neumann, 0⟩, 1, fun _ => 5, data⟩

/-- **C39.** With two equal largest values the two ways differ: the direct one keeps the entry stored first, the other one the smaller index. -/
theorem tie_differs : ∃ g2 g3 g4, spf2pf (fun f _ => List.replicate f.toNat (7 : Int)) (line fun _ => [(2, 4), (1, 4)]) = .ok g2 ∧ pf2mc (fun _ => 9) g2 = .ok g3 ∧
    spf2mc (fun _ => 9) (line fun _ => [(2, (4 : Int)), (1, 4)]) = .ok g4 ∧ g3.data 0 = 1 ∧ g4.data 0 = 2 :=
  ⟨_, _, _, rfl, rfl, rfl, by decide, by decide⟩

/-- The hypotheses of `mc_pf_mc` hold for ids 4, 0, 2, and the spacing is indeed lost. -/
example : (line (fun i => if i = 0 then 4 else if i = 1 then 0 else 2)).dx 0 ≠ 1 ∧
    ∃ g2 g3, mc2pf (fun f _ => List.replicate f.toNat (7 : Int)) (line fun i => if i = 0 then 4 else if i = 1 then 0 else 2) = .ok g2 ∧
      pf2mc (fun _ => 9) g2 = .ok g3 ∧ g3.data 0 = 4 ∧ g3.data 2 = 2 ∧ g3.dx 0 = 1 ∧ g3.shape.b0 0 = .periodic := by
  refine ⟨by decide, ?_⟩
  obtain ⟨g2, g3, h1, h2, h3, h4⟩ := mc_pf_mc (D := Int) (α := Int) (by decide) (fresh := fun f _ => List.replicate f.toNat 7) (by simp) (fun _ => 9)
    (g1 := line fun i => if i = 0 then 4 else if i = 1 then 0 else 2) rfl (by
      intro i hi
      have : i < 3 := hi
      show 0 ≤ (if (i : Int) = 0 then (4 : Int) else if (i : Int) = 1 then 0 else 2) ∧ (if (i : Int) = 0 then (4 : Int) else if (i : Int) = 1 then 0 else 2) < 2 ^ 31 - 1
      split_ifs <;> omega)
  exact ⟨g2, g3, h1, h2, h4 0 (by decide), h4 2 (by decide), h3.dx 0, (h3.bc 0).1⟩

/-- The hypotheses of `spf_pf_spf` and `spf_pf_mc` hold together. -/
example : ∀ i < size (line fun _ => [((2 : Int), (4 : Int)), (0, 3), (1, 0)]), Fits ((line fun _ => [((2 : Int), (4 : Int)), (0, 3), (1, 0)]).data (i : Nat)) := by
  intro i _
  refine ⟨by show [(2 : Int), 0, 1].Nodup; decide, ?_⟩
  show ∀ j ∈ [(2 : Int), 0, 1], 0 ≤ j ∧ j < 2 ^ 31 - 1
  decide

/-- The hypotheses of `spf2pf_3d` hold for a block of two planes. -/
example : spf2pf (fun f _ => List.replicate f.toNat (7 : Int))
    (⟨⟨3, fun _ => 0, fun _ => 2, fun _ => .periodic, fun _ => .periodic, 0⟩, 0, fun _ => (1 : Int), fun _ => [(1, 1)]⟩ : Grid Int (Sparse.Cell Int)) = .ub :=
  spf2pf_3d (by simp) rfl rfl (by decide) (by decide) (by decide) fun _ _ => ⟨by show [(1 : Int)].Nodup; decide, by show ∀ j ∈ [(1 : Int)], 0 ≤ j ∧ j < 2 ^ 31 - 1; decide⟩

/-- The hypothesis of `mc2pf_negative`. -/
example : mc2pf (fun f _ => List.replicate f.toNat (7 : Int)) (line fun i => i - 1) = .ub :=
  mc2pf_negative (by simp) rfl (by intro i hi; have : i < 3 := hi; show (i : Int) - 1 < _; omega) ⟨0, by decide, by decide⟩

end MMSP.Convert
