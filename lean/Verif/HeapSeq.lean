import Verif.HeapProps
/-!
# Operation histories on vectors (C23) and the storage part of `sparse::set`
-/

namespace MMSP.Heap

variable {T : Type}

/-- Destroying an object releases its storage; nothing else changes. -/
theorem destroy_correct {m : Mem T} (hw : Wf m) (a : Nat) : ∃ m', vDestroy m a = .ok m' ∧ (m'.obj a).data = none ∧
    (∀ id, (m.obj a).data = some id → m'.blk id = none) ∧
    (∀ b, b ≠ a → ∀ k, Holds m b k → Holds m' b k) ∧ (NoLeak m → NoLeak m') := by
  obtain ⟨m1, h1, hn1, ho1, hb1⟩ := free_own hw a
  unfold vDestroy
  simp only [h1, Outcome.ok_bind]
  refine ⟨_, rfl, by simp, ?_, ?_, ?_⟩
  · intro id hid; simp [hb1, hid]
  · intro b hb k hk
    refine Holds.other (new := m.next) hw hb (Nat.le_refl _) hk (by simp [setObj_obj, hb, ho1]) ?_
    intro id _ h
    simp [hb1, h]
  · intro hn id hid
    simp only [setObj_blk, hb1] at hid
    by_cases h : (m.obj a).data = some id
    · simp [h] at hid
    · rw [if_neg h] at hid
      obtain ⟨b, hb⟩ := hn id hid
      have hba : b ≠ a := fun e => h (e ▸ hb)
      exact ⟨b, by simp [setObj_obj, hba, ho1, hb]⟩

/-- Copy construction gives an equal vector in storage of its own. -/
theorem copyCtor_correct {m : Mem T} (hw : Wf m) {a b : Nat} (hab : a ≠ b) (ha : (m.obj a).data = none) {vals : List T}
    (hb : Holds m b (vals.map some)) : ∃ m', vCopyCtor m a b = .ok m' ∧ Updates m m' a (vals.map some) := by
  have hsz : (m.obj b).size = vals.length := by simpa using hb.1
  unfold vCopyCtor
  simp only [hsz, setObj_same]
  obtain ⟨m2, h2, hn2, ho2, hb2⟩ := alloc_ex (setObj m a { m.obj a with size := (vals.length : Int) })
    (n := vals.length) (by omega)
  simp only [h2, Outcome.ok_bind, ho2, setObj_same]
  simp only [setObj_next, setObj_blk, Int.toNat_natCast] at hn2 hb2 h2
  rw [show (0 : Int) = ((0 : Nat) : Int) from rfl, copyLoop_ok (fun m i => at' m b i) vals 0 (id := m.next) (by simp)
    (by simp [hb2]; rfl) (by simp) _ _ (by simp)]
  · refine ⟨_, rfl, realloc_updates hw (Nat.le_refl _) (by simp [hn2]) ?_ ?_⟩
    · simp [setObj, ho2]
    · intro id
      simp only [setBlk_blk, setObj_blk, hb2, ha]
      split_ifs <;> simp_all
  · intro k hk
    rw [Nat.zero_add]
    refine at'_map (vals := vals) ?_ hk
    refine Holds.other (new := m.next) hw (Ne.symm hab) (Nat.le_refl _) hb ?_ ?_
    · simp [setObj_obj, Ne.symm hab, ho2]
    · intro id h h'
      simp [setBlk_blk, h, hb2]

/-- Copy construction of a `sparse` cell. -/
theorem sparse_copyCtor_correct (be : Beyond T) {m : Mem T} (hw : Wf m) {a b : Nat} (hab : a ≠ b)
    (ha : (m.obj a).data = none) {l : List (Option T)} (hb : Holds m b l) :
    ∃ m', sCopyCtor be m a b = .ok m' ∧ Updates m m' a l := by
  have hsz : (m.obj b).size = l.length := hb.1
  unfold sCopyCtor
  simp only [hsz, setObj_same]
  obtain ⟨m2, h2, hn2, ho2, hb2⟩ := alloc_ex (setObj m a { m.obj a with size := (l.length : Int) })
    (n := l.length) (by omega)
  simp only [h2, Outcome.ok_bind, ho2, setObj_obj, if_true, Ne.symm hab, if_false]
  simp only [setObj_next, setObj_blk, Int.toNat_natCast] at hn2 hb2 h2
  obtain ⟨m3, h3, hn3, ho3, hb3⟩ := memcpy_ex be (m := setObj m2 a { data := some m.next, size := (l.length : Int) })
    (d := m.next) (p := (m.obj b).data) (ls := l) (ld := List.replicate l.length none) (n := l.length)
    (Ne.symm (hw.data_ne_fresh b (Nat.le_refl _)))
    (by simp only [setObj_blk, hb2, if_true])
    (hb.points.mono fun id e => by
      have hx : id ≠ m.next := fun e' => hw.data_ne_fresh b (Nat.le_refl _) (e' ▸ e)
      simp [hb2, hx])
    (by omega) (by simp) (by omega)
  refine ⟨m3, h3, realloc_updates (new := m.next) hw (Nat.le_refl _) (by simp [hn3, hn2]) (by simp [setObj, ho2, ho3]) ?_⟩
  intro id
  simp only [hb3, setObj_blk, hb2, ha]
  split_ifs <;> simp_all

/-- `sparse::set` on a new index keeps every item and adds one at the end; it never touches storage it does not own. -/
theorem sparse_grow_correct (be : Beyond T) {m : Mem T} (hw : Wf m) {a : Nat} {l : List (Option T)} (ha : Holds m a l)
    (x : T) : ∃ m', sGrow be m a x = .ok m' ∧ Updates m m' a (l ++ [some x]) := by
  have hsz : (m.obj a).size = l.length := ha.1
  obtain ⟨m1, m2, m3, m4, e1, ho1, e2, ho2, e3, ho3, e4, hn4, ho4, hb4⟩ :=
    regrow be hw ha l.length l.length l.length (l.length + 1) (by omega) (by omega) (by omega) (by omega)
  unfold sGrow
  simp only [hsz, e1, ho1, e2, ho2, e3, ho3, setObj_same, e4, ho4, Outcome.ok_bind, Function.update_self]
  have ht : ((l.length : Int) + 1).toNat = l.length + 1 := by omega
  rw [memcpy_ok (ld := List.replicate (l.length + 1) none) (ls := l) (by simp) (by simp [hb4, ht])
    (by simp [hb4]) (by omega) (by simp; omega) (by omega)]
  simp only [Outcome.ok_bind]
  rw [free_ok (l := l) (by simp [setBlk_blk, hb4])]
  simp only [Outcome.ok_bind, setBlk_obj, setObj_same]
  refine ⟨setBlk (setBlk (setObj (setObj m4 a ⟨some (m.next + 1), l.length⟩) a ⟨some (m.next + 1), l.length + 1⟩)
    (m.next + 1) (some (l ++ [some x]))) m.next none,
    ?_, realloc_updates (new := m.next + 1) hw (by omega) (by simp [hn4]) ?_ ?_⟩
  · have hb : (setObj (setBlk (setBlk (setObj m4 a ⟨some (m.next + 1), l.length⟩) (m.next + 1)
        (some (List.take (l.length : Int).toNat l ++ List.drop (l.length : Int).toNat
          (List.replicate (l.length + 1) none)))) m.next none) a ⟨some (m.next + 1), l.length + 1⟩).blk (m.next + 1) =
        some (l ++ [none]) := by
      simp [setBlk_blk]
    simp only [store, hb]
    rw [if_pos (by simp; omega)]
    simp [setBlk, setObj, Function.update_comm (show m.next + 1 ≠ m.next by omega)]
  · simp [setObj, ho4]
  · intro id
    simp only [setBlk_blk, setObj_blk, hb4]
    by_cases h1 : id = m.next
    · subst h1; simp [hw.data_ne_fresh a (Nat.le_refl m.next), hw.fresh m.next (Nat.le_refl _)]
    · by_cases h2 : id = m.next + 1
      · subst h2; simp
      · simp [h1, h2]

/-! ## Histories -/

/-- Operations a program can perform on its vectors. -/
inductive Op (T : Type) where
  | assign (a b : Nat)
  | copy (a b : Nat)
  | resize (a : Nat) (N : Nat)
  | append (a : Nat) (v : T)
  | appendVec (a b : Nat)
  | swap (a b : Nat)
  | set (a : Nat) (i : Nat) (v : T)
  | scale (a : Nat) (v : T)

/-- Running an operation on the heap. -/
def Op.run [Mul T] (be : Beyond T) (m : Mem T) : Op T → Outcome (Mem T)
  | .assign a b => vAssign m a b
  | .copy a b => vCopy be m a b
  | .resize a N => vResize be m a N
  | .append a v => vAppend be m a (.val v)
  | .appendVec a b => vAppendVec be m a b
  | .swap a b => .ok (vSwap m a b)
  | .set a i v => vSet m a i v
  | .scale a v => vMulEq m a (.val v)

/-- Specification: what each operation means for plain sequences (`none`: no value yet). -/
def Op.spec [Mul T] (s : Nat → List (Option T)) : Op T → Nat → List (Option T)
  | .assign a b => fun c => if c = a then s b else s c
  | .copy a b => fun c => if c = a then s b else s c
  | .resize a N => fun c => if c = a then (s a).take N ++ List.replicate (N - (s a).length) none else s c
  | .append a v => fun c => if c = a then s a ++ [some v] else s c
  | .appendVec a b => fun c => if c = a then s a ++ s b else s c
  | .swap a b => fun c => if c = a then s b else if c = b then s a else s c
  | .set a i v => fun c => if c = a then (s a).set i (some v) else s c
  | .scale a v => fun c => if c = a then (s a).map (Option.map (· * v)) else s c

/-- All elements have a value. -/
def Full (l : List (Option T)) : Prop := ∀ x ∈ l, x.isSome

/-- What the caller must respect: no self-assignment or self-copy, element reads only of elements that have a value,
indices in range. -/
def Op.allowed (s : Nat → List (Option T)) : Op T → Prop
  | .assign a b => a ≠ b ∧ Full (s b)
  | .copy a b => a ≠ b
  | .resize _ _ => True
  | .append _ _ => True
  | .appendVec _ b => Full (s b)
  | .swap _ _ => True
  | .set a i _ => i < (s a).length
  | .scale a _ => Full (s a)

def Allowed [Mul T] (s : Nat → List (Option T)) : List (Op T) → Prop
  | [] => True
  | o :: os => o.allowed s ∧ Allowed (o.spec s) os

theorem Full.exists_vals {l : List (Option T)} (h : Full l) : ∃ vals : List T, l = vals.map some := by
  induction l with
  | nil => exact ⟨[], rfl⟩
  | cons x l ih =>
    obtain ⟨vals, hv⟩ := ih fun y hy => h y (List.mem_cons_of_mem _ hy)
    obtain ⟨v, hx⟩ := Option.isSome_iff_exists.mp (h x (List.mem_cons_self ..))
    exact ⟨v :: vals, by simp [hx, hv]⟩

theorem Changes.all {m m' : Mem T} {s : Nat → List (Option T)} (hs : ∀ c, Holds m c (s c)) {a : Nat} {l : List (Option T)}
    (h : Changes m m' a l) {f : Nat → List (Option T)} (hf : ∀ c, f c = if c = a then l else s c) :
    Wf m' ∧ ∀ c, Holds m' c (f c) := by
  refine ⟨h.wf, fun c => ?_⟩
  rw [hf]
  by_cases hc : c = a
  · rw [if_pos hc, hc]; exact h.holds
  · rw [if_neg hc]; exact h.frame c hc _ (hs c)

theorem step_correct [Mul T] (g : Nat → Option T) {m : Mem T} (hw : Wf m) {s : Nat → List (Option T)}
    (hs : ∀ c, Holds m c (s c)) (o : Op T) (ho : o.allowed s) :
    ∃ m', o.run (some g) m = .ok m' ∧ Wf m' ∧ ∀ c, Holds m' c (o.spec s c) := by
  cases o with
  | assign a b =>
    obtain ⟨vals, hv⟩ := ho.2.exists_vals
    obtain ⟨m', e, hu⟩ := assign_correct hw ho.1 (vals := vals) (hv ▸ hs b)
    exact ⟨m', e, hu.toChanges.all hs fun c => by simp [Op.spec, hv]⟩
  | copy a b =>
    obtain ⟨m', e, hu⟩ := copy_correct (some g) hw ho (hs b)
    exact ⟨m', e, hu.toChanges.all hs fun c => rfl⟩
  | resize a N =>
    obtain ⟨m', e, hu, -⟩ := resize_correct (some g) hw (hs a) N
    exact ⟨m', e, hu.all hs fun c => rfl⟩
  | append a v =>
    obtain ⟨m', e, hu⟩ := append_correct_partial g hw (hs a) v
    exact ⟨m', e, hu.toChanges.all hs fun c => rfl⟩
  | appendVec a b =>
    obtain ⟨vals, hv⟩ := Full.exists_vals ho
    obtain ⟨m', e, hu⟩ := appendVec_correct_partial g hw (hs a) (vals := vals) (hv ▸ hs b)
    exact ⟨m', e, hu.toChanges.all hs fun c => by simp [Op.spec, hv]⟩
  | swap a b =>
    obtain ⟨h1, h2, h3, h4, -⟩ := swap_correct hw (hs a) (hs b)
    refine ⟨_, rfl, h1, fun c => ?_⟩
    simp only [Op.spec]
    by_cases hc : c = a
    · rw [if_pos hc, hc]; exact h2
    · rw [if_neg hc]
      by_cases hc' : c = b
      · rw [if_pos hc', hc']; exact h3
      · rw [if_neg hc']; exact h4 c hc hc' _ (hs c)
  | set a i v =>
    obtain ⟨m', e, hu⟩ := set_correct hw (hs a) ho v
    exact ⟨m', e, hu.toChanges.all hs fun c => rfl⟩
  | scale a v =>
    obtain ⟨vals, hv⟩ := Full.exists_vals ho
    obtain ⟨m', e, hu⟩ := mulEq_correct hw (x := vals) (hv ▸ hs a) v
    refine ⟨m', e, hu.toChanges.all hs fun c => ?_⟩
    simp only [Op.spec, hv, List.map_map]
    rfl

/-- Every history of allowed operations runs without undefined behaviour (given that reading behind a block is merely
unspecified) and leaves every vector holding exactly what the plain-sequence meaning says. -/
theorem history_correct [Mul T] (g : Nat → Option T) (os : List (Op T)) {m : Mem T} (hw : Wf m)
    {s : Nat → List (Option T)} (hs : ∀ c, Holds m c (s c)) (ho : Allowed s os) :
    ∃ m', os.foldlM (fun m o => o.run (some g) m) m = .ok m' ∧ Wf m' ∧ ∀ c, Holds m' c (os.foldl (fun s o => o.spec s) s c) := by
  induction os generalizing m s with
  | nil => exact ⟨m, rfl, hw, hs⟩
  | cons o os ih =>
    obtain ⟨m1, e1, hw1, hs1⟩ := step_correct g hw hs o ho.1
    obtain ⟨m2, e2, hw2, hs2⟩ := ih hw1 hs1 ho.2
    refine ⟨m2, ?_, hw2, hs2⟩
    simp [List.foldlM_cons, e1, e2]

/-- The state before any vector has elements. -/
def empty (T : Type) : Mem T := ⟨0, fun _ => none, fun _ => ⟨none, 0⟩⟩

theorem empty_wf : Wf (empty T) where
  fresh _ _ := rfl
  holds _ := ⟨[], rfl, rfl⟩
  apart _ _ _ _ := rfl

theorem empty_holds (c : Nat) : Holds (empty T) c [] := ⟨rfl, rfl⟩

/-- A non-trivial history meeting the hypotheses: build `[1, 2]`, append it to itself, shrink, assign, scale, swap. -/
def sampleOps : List (Op Int) :=
  [.resize 0 2, .set 0 0 1, .set 0 1 2, .append 0 7, .appendVec 0 0, .resize 0 3, .assign 1 0, .scale 1 5, .swap 0 1,
   .resize 0 0, .resize 0 1, .copy 2 0]

example : Allowed (fun _ => []) sampleOps := by
  simp [sampleOps, Allowed, Op.allowed, Op.spec, Full]

example : (sampleOps.foldl (fun s o => o.spec s) (fun _ => [])) 1 = [some 1, some 2, some 7] := by
  simp [sampleOps, Op.spec]

/-- The state after the sample history, for the examples below. -/
theorem sample_state : ∃ m : Mem Int, Wf m ∧ Holds m 1 ([1, 2, 7].map some) ∧ Holds m 0 [none] := by
  have hA : Allowed (fun _ => []) sampleOps := by simp [sampleOps, Allowed, Op.allowed, Op.spec, Full]
  obtain ⟨m, -, hw, h⟩ := history_correct (fun _ => none) sampleOps empty_wf empty_holds hA
  exact ⟨m, hw, by simpa [sampleOps, Op.spec] using h 1, by simpa [sampleOps, Op.spec] using h 0⟩

/-- Non-empty vectors exist in reachable states, so the negative results apply. -/
example : ∃ m : Mem Int, Wf m ∧ vAssign m 1 1 = .ub ∧ vCopy none m 1 1 = .ub ∧ vAppend none m 1 (.val 3) = .ub ∧
    vAppendVec none m 0 1 = .ub := by
  obtain ⟨m, hw, h1, h0⟩ := sample_state
  have hs : (m.obj 1).size ≠ 0 := by rw [h1.1]; decide
  exact ⟨m, hw, self_assign_ub hw 1 hs, self_copy_ub none hw 1 hs, append_overreads hw 1 _, appendVec_overreads hw 0 1 hs⟩

/-- Scaling by an own element does not give the scaled vector: `[2, 3]` becomes `[4, 12]`, not `[4, 6]`. -/
example : ∃ m m' : Mem Int, Holds m 0 ([2, 3].map some) ∧ vMulEq m 0 (elemArg m 0 0) = .ok m' ∧
    Holds m' 0 ([4, 12].map some) := by
  have hA : Allowed (fun _ => []) [.append 0 (2 : Int), .append 0 3] := by simp [Allowed, Op.allowed]
  obtain ⟨m, -, hw, h⟩ := history_correct (fun _ => none) _ empty_wf empty_holds hA
  have h0 : Holds m 0 ([2, 3].map some) := by simpa [Op.spec] using h 0
  obtain ⟨m', e, hu⟩ := mulEq_own_element hw h0
  exact ⟨m, m', h0, e, hu.holds⟩

/-- A vector shrunk to nothing and grown again loses a block. -/
example : ∃ m m' : Mem Int, Wf m ∧ Holds m 0 [] ∧ vResize none m 0 3 = .ok m' ∧ ¬ NoLeak m' := by
  obtain ⟨m1, e1, hc, -⟩ := resize_correct none (m := empty Int) empty_wf (empty_holds 0) 0
  have hd : ∃ id, (m1.obj 0).data = some id := by
    have e1' : (Outcome.ok (setObj (setBlk { setObj (empty Int) 0 ⟨none, 0⟩ with next := 1 } 0 (some [])) 0
      ⟨some 0, 0⟩) : Outcome (Mem Int)) = .ok m1 := by rw [← e1]; rfl
    cases e1'
    exact ⟨0, by simp⟩
  obtain ⟨id, hd⟩ := hd
  obtain ⟨m', e, hn⟩ := resize_leaks none hc.wf (by simpa [resized] using hc.holds) hd 3
  exact ⟨m1, m', hc.wf, by simpa [resized] using hc.holds, e, hn⟩

end MMSP.Heap
