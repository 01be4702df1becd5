import Verif.Buffer
import Verif.IndexProps
/-!
# Helper lemmas for buffers
-/

namespace MMSP

open Finset

@[simp] theorem leBytes_length (w n : Nat) : (leBytes w n).length = w := by
  induction w generalizing n with
  | zero => rfl
  | succ w ih => simp [leBytes, ih]

theorem ofLe_leBytes {w n : Nat} (h : n < 256 ^ w) : ofLe (leBytes w n) = n := by
  induction w generalizing n with
  | zero => simp [leBytes, ofLe] at *; omega
  | succ w ih =>
    have : n / 256 < 256 ^ w := by
      rw [Nat.div_lt_iff_lt_mul (by decide)]; rw [pow_succ] at h; exact h
    simp only [leBytes, ofLe, UInt8.toNat_ofNat', ih this]
    omega

theorem leBytes_ofLe (bs : List Byte) : leBytes bs.length (ofLe bs) = bs := by
  induction bs with
  | nil => rfl
  | cons b bs ih =>
    have hb := b.toNat_lt
    simp only [List.length_cons, leBytes, ofLe]
    have h1 : (b.toNat + 256 * ofLe bs) / 256 = ofLe bs := by omega
    have h2 : (b.toNat + 256 * ofLe bs) % 256 = b.toNat := by omega
    rw [h1, h2, ih]; simp

theorem ofLe_lt (bs : List Byte) : ofLe bs < 256 ^ bs.length := by
  induction bs with
  | nil => simp [ofLe]
  | cons b bs ih =>
    have hb := b.toNat_lt
    simp only [List.length_cons, ofLe, pow_succ]
    omega

@[simp] theorem intBytes_length (n : Int) : (intBytes n).length = 4 := by simp [intBytes]

theorem readInt_intBytes {n : Int} (h0 : -2 ^ 31 ≤ n) (h1 : n < 2 ^ 31) (rest : List Byte) :
    readInt (intBytes n ++ rest) = .ok n := by
  unfold readInt take
  rw [if_pos (by simp)]
  simp only [Outcome.ok_bind]
  rw [List.take_append_of_le_length (by simp), List.take_of_length_le (by simp)]
  unfold intBytes
  rw [ofLe_leBytes (by omega)]
  split <;> congr 1 <;> omega

theorem flatMap_enc_length {T : Type} (c : Codec T) (v : List T) : (v.flatMap c.enc).length = v.length * c.width := by
  induction v with
  | nil => simp
  | cons a v ih => simp [c.enc_length, ih]; ring

theorem decArray_enc {T : Type} (c : Codec T) (v : List T) (rest : List Byte) :
    decArray c v.length (v.flatMap c.enc ++ rest) = v := by
  induction v with
  | nil => rfl
  | cons a v ih =>
    simp only [List.length_cons, decArray, List.flatMap_cons, List.append_assoc]
    rw [List.take_append_of_le_length (by rw [c.enc_length]), List.take_of_length_le (by rw [c.enc_length]),
      c.dec_enc]
    congr 1
    have : (c.enc a ++ (v.flatMap c.enc ++ rest)).drop c.width = v.flatMap c.enc ++ rest := by
      rw [← c.enc_length a, List.drop_left]
    rw [this, ih]

/-! ## Traversal order -/

/-- The coordinates of the region in the order the recursion visits them; axes below `d - k` keep the value of `mn`. -/
def points (d st : Nat) (mn mx : Nat → Int) : Nat → List (Nat → Int)
  | 0 => [mn]
  | k + 1 =>
    let i := d - (k + 1)
    (irange st (mn i) (mx i)).flatMap fun x => (points d st mn mx k).map fun y => Function.update y i x

/-- Offset contributed by the axes from `i` on. -/
def offFrom (g : Shape) (i : Nat) (x : Nat → Int) : Int := ∑ j ∈ Ico i g.dim, (x j - g.s0 j) * g.sx j

theorem offFrom_zero (g : Shape) (x : Nat → Int) : offFrom g 0 x = g.rawOffset x := by
  unfold offFrom Shape.rawOffset encode; rw [Finset.range_eq_Ico]

theorem offFrom_update {g : Shape} {k : Nat} (hk : k + 1 ≤ g.dim) (y : Nat → Int) (x : Int) :
    offFrom g (g.dim - (k + 1)) (Function.update y (g.dim - (k + 1)) x) =
      (x - g.s0 (g.dim - (k + 1))) * g.sx (g.dim - (k + 1)) + offFrom g (g.dim - k) y := by
  unfold offFrom
  rw [Finset.sum_eq_sum_Ico_succ_bot (by omega)]
  have h1 : g.dim - (k + 1) + 1 = g.dim - k := by omega
  rw [h1, Function.update_self]
  congr 1
  apply Finset.sum_congr rfl
  intro j hj
  have := (Finset.mem_Ico.mp hj).1
  rw [Function.update_of_ne (by omega)]

theorem mem_irange {st : Nat} (hst : 0 < st) {a b x : Int} :
    x ∈ irange st a b ↔ a ≤ x ∧ x < b ∧ (st : Int) ∣ x - a := by
  have hst' : (0 : Int) < st := by exact_mod_cast hst
  unfold irange
  simp only [List.mem_map, List.mem_range]
  constructor
  · rintro ⟨k, hk, rfl⟩
    have hk' : (k : Int) + 1 ≤ (b - a + st - 1) / st := by omega
    rw [Int.le_ediv_iff_mul_le hst'] at hk'
    have h0 : 0 ≤ (st : Int) * k := by positivity
    refine ⟨by omega, ?_, ⟨k, by ring⟩⟩
    have : ((k : Int) + 1) * st = st * k + st := by ring
    omega
  · rintro ⟨h1, h2, m, hm⟩
    have hm0 : 0 ≤ m := by
      by_contra h
      have : (st : Int) * m < 0 := mul_neg_of_pos_of_neg hst' (by omega)
      omega
    refine ⟨m.toNat, ?_, by rw [Int.toNat_of_nonneg hm0]; omega⟩
    have : m + 1 ≤ (b - a + st - 1) / st := by
      rw [Int.le_ediv_iff_mul_le hst']
      have : (m + 1) * st = st * m + st := by ring
      omega
    omega

theorem mem_points {d st : Nat} (hst : 0 < st) {mn mx : Nat → Int} {k : Nat} (hk : k ≤ d) {x : Nat → Int} :
    x ∈ points d st mn mx k ↔
      (∀ j, d - k ≤ j → j < d → mn j ≤ x j ∧ x j < mx j ∧ (st : Int) ∣ x j - mn j) ∧ (∀ j, j < d - k ∨ d ≤ j → x j = mn j) := by
  induction k generalizing x with
  | zero =>
    simp only [points, List.mem_singleton]
    constructor
    · rintro rfl; exact ⟨fun j _ _ => by omega, fun _ _ => rfl⟩
    · rintro ⟨_, h⟩; funext j; exact h j (by omega)
  | succ k ih =>
    simp only [points, List.mem_flatMap, List.mem_map, mem_irange hst]
    constructor
    · rintro ⟨a, ha, y, hy, rfl⟩
      rw [ih (by omega)] at hy
      constructor
      · intro j h1 h2
        by_cases hj : j = d - (k + 1)
        · subst hj; rw [Function.update_self]; exact ha
        · rw [Function.update_of_ne hj]; exact hy.1 j (by omega) h2
      · intro j hj
        rw [Function.update_of_ne (by omega)]; exact hy.2 j (by omega)
    · rintro ⟨h1, h2⟩
      refine ⟨x (d - (k + 1)), h1 _ le_rfl (by omega), Function.update x (d - (k + 1)) (mn (d - (k + 1))), ?_, ?_⟩
      · rw [ih (by omega)]
        constructor
        · intro j hj hj'
          rw [Function.update_of_ne (by omega)]; exact h1 j (by omega) hj'
        · intro j hj
          by_cases hj2 : j = d - (k + 1)
          · subst hj2; rw [Function.update_self]
          · rw [Function.update_of_ne hj2]; exact h2 j (by omega)
      · simp

/-! ## The three traversals in terms of the visited points -/

section Region
variable {T : Type} {c : Cell T} {g : Shape} {st : Nat} {mn mx : Nat → Int}

/-- Every visited offset is inside the array. -/
def AllIn (g : Shape) (offs : List Int) : Prop := ∀ o ∈ offs, 0 ≤ o ∧ o < g.cells

theorem foldlM_ok_append {α β : Type} (l : List α) (f : α → Outcome (List β)) (h : α → List β)
    (hf : ∀ x ∈ l, f x = .ok (h x)) (init : List β) :
    l.foldlM (fun out x => (f x).bind fun b => Outcome.ok (out ++ b)) init = .ok (init ++ l.flatMap h) := by
  induction l generalizing init with
  | nil => simp
  | cons a l ih =>
    rw [List.foldlM_cons, hf a (by simp)]
    simp only [Outcome.ok_bind, Outcome.bind_eq]
    rw [ih (fun x hx => hf x (by simp [hx]))]
    simp

theorem foldlM_ok_sum {α : Type} (l : List α) (f : α → Outcome Nat) (h : α → Nat)
    (hf : ∀ x ∈ l, f x = .ok (h x)) (init : Nat) :
    l.foldlM (fun out x => (f x).bind fun b => Outcome.ok (out + b)) init = .ok (init + (l.map h).sum) := by
  induction l generalizing init with
  | nil => simp
  | cons a l ih =>
    rw [List.foldlM_cons, hf a (by simp)]
    simp only [Outcome.ok_bind, Outcome.bind_eq]
    rw [ih (fun x hx => hf x (by simp [hx]))]
    simp [Nat.add_assoc]

/-- Offsets visited below pointer `p`. -/
def visited (g : Shape) (st : Nat) (mn mx : Nat → Int) (k : Nat) (p : Int) : List Int :=
  (points g.dim st mn mx k).map fun x => p + offFrom g (g.dim - k) x

theorem visited_succ {k : Nat} (hk : k + 1 ≤ g.dim) (p : Int) :
    visited g st mn mx (k + 1) p = (irange st (mn (g.dim - (k + 1))) (mx (g.dim - (k + 1)))).flatMap fun x =>
      visited g st mn mx k (p + (x - g.s0 (g.dim - (k + 1))) * g.sx (g.dim - (k + 1))) := by
  unfold visited
  simp only [points, List.map_flatMap, List.map_map]
  congr 1
  funext x
  apply List.map_congr_left
  intro y _
  simp only [Function.comp]
  rw [offFrom_update hk]; ring

theorem visited_zero (p : Int) : visited g st mn mx 0 p = [p] := by
  simp [visited, points, offFrom]

theorem allIn_sub {k : Nat} (hk : k + 1 ≤ g.dim) {p : Int} (h : AllIn g (visited g st mn mx (k + 1) p)) {x : Int}
    (hx : x ∈ irange st (mn (g.dim - (k + 1))) (mx (g.dim - (k + 1)))) :
    AllIn g (visited g st mn mx k (p + (x - g.s0 (g.dim - (k + 1))) * g.sx (g.dim - (k + 1)))) := by
  intro o ho
  apply h
  rw [visited_succ hk]
  exact List.mem_flatMap.mpr ⟨x, hx, ho⟩

theorem regionTo_eq (data : Int → T) {k : Nat} (hk : k ≤ g.dim) {p : Int} (h : AllIn g (visited g st mn mx k p)) :
    regionTo c g st mn mx data k p = .ok ((visited g st mn mx k p).flatMap fun o => c.enc (data o)) := by
  induction k generalizing p with
  | zero =>
    rw [visited_zero] at h ⊢
    have := h p (by simp)
    simp [regionTo, deref, this]
  | succ k ih =>
    simp only [regionTo]
    rw [foldlM_ok_append _ _ (fun x => (visited g st mn mx k (p + (x - g.s0 (g.dim - (k + 1))) * g.sx (g.dim - (k + 1)))).flatMap
      fun o => c.enc (data o)) (fun x hx => ih (by omega) (allIn_sub hk h hx))]
    rw [visited_succ hk, List.flatMap_assoc]
    simp

theorem regionSize_eq (data : Int → T) {k : Nat} (hk : k ≤ g.dim) {p : Int} (h : AllIn g (visited g st mn mx k p)) :
    regionSize c g st mn mx data k p = .ok ((visited g st mn mx k p).map fun o => c.size (data o)).sum := by
  induction k generalizing p with
  | zero =>
    rw [visited_zero] at h ⊢
    have := h p (by simp)
    simp [regionSize, deref, this]
  | succ k ih =>
    simp only [regionSize]
    rw [foldlM_ok_sum _ _ (fun x => ((visited g st mn mx k (p + (x - g.s0 (g.dim - (k + 1))) * g.sx (g.dim - (k + 1)))).map
      fun o => c.size (data o)).sum) (fun x hx => ih (by omega) (allIn_sub hk h hx))]
    rw [visited_succ hk, List.map_flatMap]
    simp only [Nat.zero_add]
    congr 1
    generalize irange st (mn (g.dim - (k + 1))) (mx (g.dim - (k + 1))) = l
    induction l with
    | nil => simp
    | cons a l ih => simp [ih]

/-- Sequential decode of a list of offsets. -/
def decodeAt (c : Cell T) (g : Shape) (buf : List Byte) (offs : List Int) (q : (Int → T) × Nat) :
    Outcome ((Int → T) × Nat) :=
  offs.foldlM (fun q o => (c.dec (buf.drop q.2)).bind fun vn =>
    (store g q.1 o vn.1).bind fun data' => .ok (data', q.2 + vn.2)) q

theorem decodeAt_append (buf : List Byte) (a b : List Int) (q : (Int → T) × Nat) :
    decodeAt c g buf (a ++ b) q = (decodeAt c g buf a q).bind (decodeAt c g buf b) := by
  unfold decodeAt
  rw [List.foldlM_append]; rfl

theorem decodeAt_shift (buf : List Byte) (offs : List Int) (data : Int → T) (m n : Nat) :
    decodeAt c g buf offs (data, m + n) =
      (decodeAt c g (buf.drop m) offs (data, n)).bind fun r => .ok (r.1, m + r.2) := by
  induction offs generalizing data n with
  | nil => simp [decodeAt]
  | cons o offs ih =>
    simp only [decodeAt, List.foldlM_cons, List.drop_drop]
    cases hd : c.dec (buf.drop (m + n)) with
    | ub => rfl
    | abort _ => rfl
    | ok vn =>
      simp only [Outcome.ok_bind]
      cases hs : store g data o vn.1 with
      | ub => rfl
      | abort _ => rfl
      | ok data' =>
        simp only [Outcome.bind_eq, Outcome.ok_bind]
        rw [Nat.add_assoc]
        have h := ih data' (n + vn.2)
        simp only [decodeAt, List.drop_drop] at h
        exact h

theorem regionFrom_eq (buf : List Byte) {k : Nat} (hk : k ≤ g.dim) (p : Int) (data : Int → T) :
    regionFrom c g st mn mx buf k p data = decodeAt c g buf (visited g st mn mx k p) (data, 0) := by
  induction k generalizing p buf data with
  | zero =>
    rw [visited_zero]
    simp only [regionFrom, decodeAt, List.foldlM_cons, List.foldlM_nil, List.drop_zero, Nat.zero_add]
    cases c.dec buf with
    | ub => rfl
    | abort _ => rfl
    | ok vn => simp only [Outcome.ok_bind, Outcome.bind_eq]; cases store g data p vn.1 <;> rfl
  | succ k ih =>
    rw [visited_succ hk]
    simp only [regionFrom]
    generalize irange st (mn (g.dim - (k + 1))) (mx (g.dim - (k + 1))) = l
    have key : ∀ (l : List Int) (q : (Int → T) × Nat),
        l.foldlM (fun (q : (Int → T) × Nat) x =>
          (regionFrom c g st mn mx (buf.drop q.2) k (p + (x - g.s0 (g.dim - (k + 1))) * g.sx (g.dim - (k + 1))) q.1).bind
            fun r => Outcome.ok (r.1, q.2 + r.2)) q =
        decodeAt c g buf (l.flatMap fun x =>
          visited g st mn mx k (p + (x - g.s0 (g.dim - (k + 1))) * g.sx (g.dim - (k + 1)))) q := by
      intro l
      induction l with
      | nil => intro q; simp [decodeAt]
      | cons x l ihl =>
        intro q
        rw [List.foldlM_cons, List.flatMap_cons, decodeAt_append]
        rw [ih (buf.drop q.2) (by omega)]
        have hs := decodeAt_shift (c := c) (g := g) buf
          (visited g st mn mx k (p + (x - g.s0 (g.dim - (k + 1))) * g.sx (g.dim - (k + 1)))) q.1 q.2 0
        simp only [Nat.add_zero] at hs
        change _ = (decodeAt c g buf _ (q.1, q.2)).bind _
        rw [hs]
        cases decodeAt c g (buf.drop q.2) (visited g st mn mx k
          (p + (x - g.s0 (g.dim - (k + 1))) * g.sx (g.dim - (k + 1)))) (q.1, 0) with
        | ub => rfl
        | abort _ => rfl
        | ok r =>
          simp only [Outcome.ok_bind, Outcome.bind_eq]
          exact ihl (r.1, q.2 + r.2)
    exact key l (data, 0)

end Region

end MMSP
