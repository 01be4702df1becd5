import Verif.Heap
import Mathlib.Tactic.SplitIfs
/-!
# Container laws of vectors and storage safety (C23, C24, C25)
-/

namespace MMSP.Heap

variable {T : Type}

/-! ## Specification -/

/-- Object `a` holds exactly the elements `l` (an element that was never written is `none`). -/
def Holds (m : Mem T) (a : Nat) (l : List (Option T)) : Prop :=
  (m.obj a).size = l.length ∧
    match (m.obj a).data with
    | none => l = []
    | some id => m.blk id = some l

/-- Every object holds something, and no two objects share storage. -/
structure Wf (m : Mem T) : Prop where
  fresh : ∀ id, m.next ≤ id → m.blk id = none
  holds : ∀ a, ∃ l, Holds m a l
  apart : ∀ a b, a ≠ b → (m.obj a).data = (m.obj b).data → (m.obj a).data = none

/-- Every live block belongs to some object. -/
def NoLeak (m : Mem T) : Prop := ∀ id, (m.blk id).isSome → ∃ a, (m.obj a).data = some id

/-- The operation from `m` to `m'` makes `a` hold `l` and touches no other object. -/
structure Changes (m m' : Mem T) (a : Nat) (l : List (Option T)) : Prop where
  wf : Wf m'
  holds : Holds m' a l
  frame : ∀ b, b ≠ a → ∀ k, Holds m b k → Holds m' b k

/-- The same, and no storage is lost. -/
structure Updates (m m' : Mem T) (a : Nat) (l : List (Option T)) : Prop extends Changes m m' a l where
  noLeak : NoLeak m → NoLeak m'

/-! ## Helper lemmas -/

theorem Holds.unique {m : Mem T} {a : Nat} {l k : List (Option T)} (h : Holds m a l) (h' : Holds m a k) : l = k := by
  unfold Holds at h h'
  cases hd : (m.obj a).data <;> simp only [hd] at h h'
  · rw [h.2, h'.2]
  · have := h.2.symm.trans h'.2
    exact Option.some.inj this

theorem Wf.data_ne_fresh {m : Mem T} (hw : Wf m) (b : Nat) {id : Nat} (h : m.next ≤ id) : (m.obj b).data ≠ some id := by
  intro e
  obtain ⟨l, hl⟩ := hw.holds b
  have := hl.2
  rw [e] at this
  simp only [hw.fresh id h] at this
  cases this

/-- `a` gets a fresh block holding `l`. -/
theorem fresh_changes {m m' : Mem T} {a new : Nat} {l : List (Option T)} (hw : Wf m) (hnew : m.next ≤ new)
    (hnext : new < m'.next)
    (hobj : m'.obj = Function.update m.obj a ⟨some new, l.length⟩)
    (hblk : ∀ id, m'.blk id = if id = new then some l else if (m.obj a).data = some id then m'.blk id else m.blk id) :
    Changes m m' a l := by
  have hh : Holds m' a l := by
    refine ⟨by rw [hobj, Function.update_self], ?_⟩
    rw [hobj, Function.update_self]
    change m'.blk new = some l
    rw [hblk, if_pos rfl]
  have hf : ∀ b, b ≠ a → ∀ k, Holds m b k → Holds m' b k := by
    intro b hb k hk
    have hob : m'.obj b = m.obj b := by rw [hobj, Function.update_of_ne hb]
    refine ⟨by rw [hob]; exact hk.1, ?_⟩
    have h2 := hk.2
    rw [hob]
    cases hd : (m.obj b).data with
    | none => simpa [hd] using h2
    | some id =>
      simp only [hd] at h2 ⊢
      have h1 : id ≠ new := fun e => hw.data_ne_fresh b hnew (by rw [hd, e])
      have h3 : (m.obj a).data ≠ some id := by
        intro e
        have := hw.apart a b hb.symm (by rw [e, hd])
        rw [e] at this; cases this
      rw [hblk, if_neg h1, if_neg h3, h2]
  refine ⟨⟨?_, ?_, ?_⟩, hh, hf⟩
  · intro id hid
    have h1 : id ≠ new := by omega
    rw [hblk, if_neg h1, if_neg (hw.data_ne_fresh a (by omega))]
    exact hw.fresh id (by omega)
  · intro b
    by_cases hb : b = a
    · exact ⟨l, hb ▸ hh⟩
    · obtain ⟨k, hk⟩ := hw.holds b
      exact ⟨k, hf b hb k hk⟩
  · intro b c hbc he
    rw [hobj] at he ⊢
    by_cases hb : b = a
    · subst hb
      rw [Function.update_self, Function.update_of_ne (Ne.symm hbc)] at he
      exact absurd he.symm (hw.data_ne_fresh c hnew)
    · by_cases hc : c = a
      · subst hc
        rw [Function.update_self, Function.update_of_ne hb] at he
        exact absurd he (hw.data_ne_fresh b hnew)
      · rw [Function.update_of_ne hb, Function.update_of_ne hc] at he
        rw [Function.update_of_ne hb]
        exact hw.apart b c hbc he

/-- Storage of `a` replaced by a fresh block holding `l`. -/
theorem realloc_updates {m m' : Mem T} {a new : Nat} {l : List (Option T)} (hw : Wf m) (hnew : m.next ≤ new)
    (hnext : new < m'.next)
    (hobj : m'.obj = Function.update m.obj a ⟨some new, l.length⟩)
    (hblk : ∀ id, m'.blk id = if id = new then some l else if (m.obj a).data = some id then none else m.blk id) :
    Updates m m' a l := by
  refine ⟨fresh_changes hw hnew hnext hobj fun id => ?_, ?_⟩
  · rw [hblk]; split_ifs <;> rfl
  · intro hn id hid
    rw [hblk] at hid
    by_cases h1 : id = new
    · exact ⟨a, by simp [hobj, h1]⟩
    · rw [if_neg h1] at hid
      by_cases h2 : (m.obj a).data = some id
      · simp [h2] at hid
      · rw [if_neg h2] at hid
        obtain ⟨b, hb⟩ := hn id hid
        have hba : b ≠ a := fun e => h2 (e ▸ hb)
        exact ⟨b, by rw [hobj, Function.update_of_ne hba, hb]⟩

@[simp] theorem setBlk_obj (m : Mem T) (i : Nat) (b) : (setBlk m i b).obj = m.obj := rfl
@[simp] theorem setBlk_next (m : Mem T) (i : Nat) (b) : (setBlk m i b).next = m.next := rfl
theorem setBlk_blk (m : Mem T) (i : Nat) (b) (j : Nat) : (setBlk m i b).blk j = if j = i then b else m.blk j := by
  by_cases h : j = i
  · subst h; simp [setBlk]
  · simp [setBlk, h]
@[simp] theorem setBlk_same (m : Mem T) (i : Nat) (b) : (setBlk m i b).blk i = b := by simp [setBlk]
@[simp] theorem setObj_blk (m : Mem T) (a : Nat) (o) : (setObj m a o).blk = m.blk := rfl
@[simp] theorem setObj_next (m : Mem T) (a : Nat) (o) : (setObj m a o).next = m.next := rfl
theorem setObj_obj (m : Mem T) (a : Nat) (o) (b : Nat) : (setObj m a o).obj b = if b = a then o else m.obj b := by
  by_cases h : b = a
  · subst h; simp [setObj]
  · simp [setObj, h]
@[simp] theorem setObj_same (m : Mem T) (a : Nat) (o) : (setObj m a o).obj a = o := by simp [setObj]
theorem setBlk_self {m : Mem T} {i : Nat} {b} (h : m.blk i = b) : setBlk m i b = m := by
  unfold setBlk; rw [← h, Function.update_eq_self]
@[simp] theorem setBlk_setBlk (m : Mem T) (i : Nat) (b c) : setBlk (setBlk m i b) i c = setBlk m i c := by
  simp [setBlk]

theorem alloc_ok (m : Mem T) {n : Int} (h : 0 ≤ n) : alloc m n =
    .ok (m.next, setBlk { m with next := m.next + 1 } m.next (some (List.replicate n.toNat none))) := by
  unfold alloc; rw [if_neg (by omega)]

theorem free_ok {m : Mem T} {id : Nat} {l : List (Option T)} (h : m.blk id = some l) :
    free m (some id) = .ok (setBlk m id none) := by
  simp [free, h]

@[simp] theorem free_null (m : Mem T) : free m none = .ok m := rfl

theorem memcpy_ok {be : Beyond T} {m : Mem T} {d s : Nat} {ld ls : List (Option T)} {n : Int} (hne : d ≠ s)
    (hd : m.blk d = some ld) (hs : m.blk s = some ls) (h0 : 0 ≤ n) (h1 : n ≤ ld.length) (h2 : n ≤ ls.length) :
    memcpy be m (some d) (some s) n = .ok (setBlk m d (some (ls.take n.toNat ++ ld.drop n.toNat))) := by
  unfold memcpy
  split_ifs with h
  · subst h
    simp [setBlk_self hd]
  · simp [hd, hs, h0, h1, h2, hne]

/-- Running a copy loop whose reads are known. -/
theorem copyLoop_ok {m : Mem T} {a id : Nat} {l : List (Option T)} (src : Mem T → Int → Outcome T) (vals : List T)
    (lo : Nat) (hd : (m.obj a).data = some id) (hb : m.blk id = some l) (hl : lo + vals.length ≤ l.length)
    (hsrc : ∀ k (hk : k < vals.length),
      src (setBlk m id (some (l.take lo ++ (vals.take k).map some ++ l.drop (lo + k)))) (lo + k : Nat) = .ok vals[k])
    (hi : Int) (hhi : hi = (lo + vals.length : Nat)) :
    copyLoop m a lo hi src =
      .ok (setBlk m id (some (l.take lo ++ vals.map some ++ l.drop (lo + vals.length)))) := by
  have main : ∀ n, n ≤ vals.length → ((List.range n).map fun (k : Nat) => (lo : Int) + k).foldlM
      (fun m i => (src m i).bind fun v => store m (m.obj a).data i v) m =
      .ok (setBlk m id (some (l.take lo ++ (vals.take n).map some ++ l.drop (lo + n)))) := by
    intro n hn
    induction n with
    | zero => simp [setBlk_self hb]
    | succ n ih =>
      rw [List.range_succ, List.map_append, List.foldlM_append, ih (by omega)]
      simp only [Outcome.bind_eq, Outcome.ok_bind, List.map_cons, List.map_nil, List.foldlM_cons, List.foldlM_nil]
      rw [show ((lo : Int) + (n : Nat)) = ((lo + n : Nat) : Int) by push_cast; rfl, hsrc n (by omega)]
      have hlen : (lo + n : Nat) < l.length := by omega
      have hset : (l.take lo ++ (vals.take n).map some ++ l.drop (lo + n)).set (lo + n) (some vals[n]) =
          l.take lo ++ (vals.take (n+1)).map some ++ l.drop (lo + (n + 1)) := by
        have e1 : (l.take lo ++ (vals.take n).map some).length = lo + n := by
          simp; omega
        rw [List.set_append_right _ _ (by omega), e1, Nat.sub_self, List.take_succ_eq_append_getElem (by omega : n < vals.length),
          List.drop_eq_getElem_cons hlen]
        simp only [List.map_append, List.append_assoc, List.map_cons, List.map_nil, List.set_cons_zero,
          List.singleton_append, Nat.add_assoc]
      have hst : store (setBlk m id (some (l.take lo ++ (vals.take n).map some ++ l.drop (lo + n)))) (some id)
          ((lo + n : Nat) : Int) vals[n] =
          .ok (setBlk m id (some (l.take lo ++ (vals.take (n+1)).map some ++ l.drop (lo + (n + 1))))) := by
        unfold store
        have h3 : ((lo + n : Nat) : Int) < ((l.take lo ++ (vals.take n).map some ++ l.drop (lo + n)).length : Nat) := by
          simp; omega
        simp only [setBlk_same]
        rw [if_pos ⟨by omega, h3⟩, Int.toNat_natCast, hset]
        simp
      simp only [Outcome.ok_bind, hd, hst, setBlk_obj]
      rfl
  unfold copyLoop
  have := main vals.length (Nat.le_refl _)
  rw [List.take_length] at this
  rw [← this]
  congr 3
  omega

theorem at'_ok {m : Mem T} {b : Nat} {l : List (Option T)} (h : Holds m b l) {k : Nat} (hk : k < l.length) {v : T}
    (hv : l[k] = some v) : at' m b k = .ok v := by
  unfold at'
  rw [if_pos (by rw [h.1]; omega)]
  have h2 := h.2
  cases hd : (m.obj b).data with
  | none => simp only [hd] at h2; subst h2; simp at hk
  | some id =>
    simp only [hd] at h2
    simp [load, h2, List.getElem?_eq_getElem hk, hv]

theorem at'_map {m : Mem T} {b : Nat} {vals : List T} (h : Holds m b (vals.map some)) {k : Nat} (hk : k < vals.length) :
    at' m b k = .ok vals[k] :=
  at'_ok h (by simpa using hk) (by simp)

/-- Reading another object is not disturbed by fresh blocks, released blocks of `a` and new fields of `a`. -/
theorem Holds.other {m m' : Mem T} (hw : Wf m) {a b new : Nat} (hb : b ≠ a) (hnew : m.next ≤ new) {l : List (Option T)}
    (h : Holds m b l) (hobj : m'.obj b = m.obj b)
    (hblk : ∀ id, id ≠ new → (m.obj a).data ≠ some id → m'.blk id = m.blk id) : Holds m' b l := by
  refine ⟨by rw [hobj]; exact h.1, ?_⟩
  have h2 := h.2
  rw [hobj]
  cases hd : (m.obj b).data with
  | none => simpa [hd] using h2
  | some id =>
    simp only [hd] at h2 ⊢
    have h1 : id ≠ new := by
      intro e
      have := hw.fresh id (by omega)
      rw [h2] at this; cases this
    have h3 : (m.obj a).data ≠ some id := by
      intro e
      have := hw.apart a b hb.symm (by rw [e, hd])
      rw [e] at this; cases this
    rw [hblk id h1 h3, h2]

/-- Releasing the storage of an object never fails in a well-formed state. -/
theorem free_own {m : Mem T} (hw : Wf m) (a : Nat) : ∃ m', free m (m.obj a).data = .ok m' ∧ m'.next = m.next ∧
    m'.obj = m.obj ∧ ∀ id, m'.blk id = if (m.obj a).data = some id then none else m.blk id := by
  obtain ⟨l, hl⟩ := hw.holds a
  have h2 := hl.2
  cases hd : (m.obj a).data with
  | none => exact ⟨m, rfl, rfl, rfl, fun id => by simp⟩
  | some id =>
    simp only [hd] at h2
    refine ⟨_, free_ok h2, rfl, rfl, fun j => ?_⟩
    rw [setBlk_blk]
    by_cases h : j = id
    · subst h; simp
    · simp [h, Ne.symm h]

/-! ## C23: container laws -/

theorem alloc_ex (m : Mem T) {n : Int} (h : 0 ≤ n) : ∃ m', alloc m n = .ok (m.next, m') ∧ m'.next = m.next + 1 ∧
    m'.obj = m.obj ∧ ∀ id, m'.blk id = if id = m.next then some (List.replicate n.toNat none) else m.blk id :=
  ⟨_, alloc_ok m h, rfl, rfl, fun id => by rw [setBlk_blk]⟩

/-- Pointer `p` points to a block holding `l`, or is null and `l` is empty. -/
def Points (m : Mem T) (p : Option Nat) (l : List (Option T)) : Prop :=
  match p with
  | none => l = []
  | some id => m.blk id = some l

theorem Holds.points {m : Mem T} {a : Nat} {l : List (Option T)} (h : Holds m a l) : Points m (m.obj a).data l := h.2

theorem memcpy_ex (be : Beyond T) {m : Mem T} {d : Nat} {p : Option Nat} {ld ls : List (Option T)} {n : Int}
    (hne : some d ≠ p) (hd : m.blk d = some ld) (hs : Points m p ls) (h0 : 0 ≤ n) (h1 : n ≤ ld.length)
    (h2 : n ≤ ls.length) :
    ∃ m', memcpy be m (some d) p n = .ok m' ∧ m'.next = m.next ∧ m'.obj = m.obj ∧
      ∀ id, m'.blk id = if id = d then some (ls.take n.toNat ++ ld.drop n.toNat) else m.blk id := by
  cases p with
  | none =>
    have : ls = [] := hs
    subst this
    have : n = 0 := by simp at h2; omega
    subst this
    refine ⟨m, by simp [memcpy], rfl, rfl, fun id => ?_⟩
    by_cases h : id = d
    · subst h; simp [hd]
    · simp [h]
  | some s =>
    exact ⟨_, memcpy_ok (fun e => hne (by rw [e])) hd hs h0 h1 h2, rfl, rfl, fun id => by rw [setBlk_blk]⟩

/-- Copying more than the source holds: undefined behaviour, or unspecified values beyond the end. -/
theorem memcpy_over (be : Beyond T) {m : Mem T} {d s : Nat} {ld ls : List (Option T)} {n : Int}
    (hne : d ≠ s) (hd : m.blk d = some ld) (hs : m.blk s = some ls) (h0 : 0 ≤ n) (h1 : n ≤ ld.length)
    (h2 : (ls.length : Int) < n) :
    memcpy be m (some d) (some s) n = match be with
      | none => .ub
      | some g => .ok (setBlk m d (some (ls ++ (List.range (n.toNat - ls.length)).map g ++ ld.drop n.toNat))) := by
  unfold memcpy
  rw [if_neg (by omega)]
  simp only [hne, if_false, hd, hs]
  rw [if_pos ⟨h0, h1⟩, if_neg (by omega)]
  cases be <;> rfl

theorem Points.mono {m m' : Mem T} {p : Option Nat} {l : List (Option T)} (h : Points m p l)
    (hm : ∀ id, p = some id → m'.blk id = m.blk id) : Points m' p l := by
  cases p with
  | none => exact h
  | some id => exact (hm id rfl).trans h

/-- Assignment makes the left side equal to the right side and changes nothing else. -/
theorem assign_correct {m : Mem T} (hw : Wf m) {a b : Nat} (hab : a ≠ b) {vals : List T}
    (hb : Holds m b (vals.map some)) : ∃ m', vAssign m a b = .ok m' ∧ Updates m m' a (vals.map some) := by
  obtain ⟨m1, h1, hn1, ho1, hb1⟩ := free_own hw a
  have hsz : (m.obj b).size = vals.length := by simpa using hb.1
  unfold vAssign
  simp only [h1, Outcome.ok_bind, setObj_obj, if_true, Ne.symm hab, if_false, ho1, hsz]
  obtain ⟨m2, h2, hn2, ho2, hb2⟩ := alloc_ex (setObj (setObj m1 a { m.obj a with data := none }) a
    { data := none, size := (vals.length : Int) }) (n := vals.length) (by omega)
  simp only [h2, Outcome.ok_bind, setObj_obj, if_true, ho2, setObj_next, hn1]
  simp only [setObj_next, setObj_blk, hn1, Int.toNat_natCast] at hn2 hb2
  rw [show (0 : Int) = ((0 : Nat) : Int) from rfl, copyLoop_ok (fun m i => at' m b i) vals 0 (id := m.next) (by simp)
    (by simp [hb2]; rfl) (by simp) _ _ (by simp)]
  · refine ⟨_, rfl, realloc_updates hw (Nat.le_refl _) (by simp [hn2]) ?_ ?_⟩
    · simp [setObj, ho2, ho1]
    · intro id
      simp only [setBlk_blk, setObj_blk, hb2, hb1]
      split_ifs <;> simp
  · intro k hk
    rw [Nat.zero_add]
    refine at'_map (vals := vals) ?_ hk
    refine Holds.other (new := m.next) hw (Ne.symm hab) (Nat.le_refl _) hb ?_ ?_
    · simp [setObj_obj, Ne.symm hab, ho1, ho2]
    · intro id h h'
      simp [setBlk_blk, h, hb1, h', hb2]

/-- `copy` makes the object equal to its argument and changes nothing else. -/
theorem copy_correct (be : Beyond T) {m : Mem T} (hw : Wf m) {a b : Nat} (hab : a ≠ b) {l : List (Option T)}
    (hb : Holds m b l) : ∃ m', vCopy be m a b = .ok m' ∧ Updates m m' a l := by
  obtain ⟨m1, h1, hn1, ho1, hb1⟩ := free_own hw a
  have hsz : (m.obj b).size = l.length := by simpa using hb.1
  unfold vCopy
  simp only [h1, Outcome.ok_bind, setObj_obj, if_true, Ne.symm hab, if_false, ho1, hsz]
  obtain ⟨m2, h2, hn2, ho2, hb2⟩ := alloc_ex (setObj (setObj m1 a { m.obj a with data := none }) a
    { data := none, size := (l.length : Int) }) (n := l.length) (by omega)
  simp only [h2, Outcome.ok_bind, setObj_obj, if_true, ho2, setObj_next, hn1, Ne.symm hab, if_false, ho1]
  simp only [setObj_next, setObj_blk, hn1, Int.toNat_natCast] at hn2 hb2
  have hne : ∀ id, (m.obj b).data = some id → id ≠ m.next ∧ (m.obj a).data ≠ some id := by
    intro id e
    refine ⟨fun e' => hw.data_ne_fresh b (Nat.le_refl _) (e' ▸ e), fun e' => ?_⟩
    have := hw.apart a b hab (by rw [e, e'])
    rw [e'] at this; cases this
  obtain ⟨m3, h3, hn3, ho3, hb3⟩ := memcpy_ex be (m := setObj m2 a { data := some m.next, size := (l.length : Int) })
    (d := m.next) (p := (m.obj b).data) (ls := l) (ld := List.replicate l.length none) (n := l.length)
    (Ne.symm (hw.data_ne_fresh b (Nat.le_refl _)))
    (by simp only [setObj_blk, hb2, if_true])
    (hb.points.mono fun id e => by simp only [setObj_blk, hb2, hb1, hne id e, if_false])
    (by omega) (by simp) (by omega)
  refine ⟨m3, h3, realloc_updates (new := m.next) hw (Nat.le_refl _) (by simp [hn3, hn2]) (by simp [setObj, ho2, ho1, ho3]) ?_⟩
  intro id
  simp only [hb3, setObj_blk, hb2, hb1]
  split_ifs <;> simp

/-- The part shared by `resize`, `append` and `set`: the contents of `a` are saved in a temporary block, then `a` gets a
fresh block of `N` elements. -/
theorem regrow {m : Mem T} (be : Beyond T) (hw : Wf m) {a : Nat} {l : List (Option T)} (ha : Holds m a l) (tl n0 : Int)
    (sz N : Int) (h0 : 0 ≤ n0) (h1 : n0 ≤ tl) (h2 : n0 ≤ l.length) (h3 : 0 ≤ N) :
    ∃ m1 m2 m3 m4 : Mem T, alloc m tl = .ok (m.next, m1) ∧ m1.obj = m.obj ∧
      memcpy be m1 (some m.next) (m.obj a).data n0 = .ok m2 ∧ m2.obj = m.obj ∧
      free m2 (m.obj a).data = .ok m3 ∧ m3.obj = m.obj ∧
      alloc (setObj m3 a ⟨none, sz⟩) N = .ok (m.next + 1, m4) ∧ m4.next = m.next + 2 ∧
      m4.obj = Function.update m.obj a ⟨none, sz⟩ ∧
      (∀ id, m4.blk id = if id = m.next then some (l.take n0.toNat ++ List.replicate (tl.toNat - n0.toNat) none)
        else if id = m.next + 1 then some (List.replicate N.toNat none)
        else if (m.obj a).data = some id then none else m.blk id) := by
  obtain ⟨m1, e1, hn1, ho1, hb1⟩ := alloc_ex m (n := tl) (by omega)
  have hfr : ∀ id, (m.obj a).data = some id → id ≠ m.next := fun id e e' => hw.data_ne_fresh a (Nat.le_refl _) (e' ▸ e)
  obtain ⟨m2, e2, hn2, ho2, hb2⟩ := memcpy_ex be (m := m1) (d := m.next) (p := (m.obj a).data) (ls := l)
    (ld := List.replicate tl.toNat none) (n := n0) (Ne.symm (hw.data_ne_fresh a (Nat.le_refl _)))
    (by simp [hb1]) (ha.points.mono fun id e => by simp [hb1, hfr id e]) h0 (by simp; omega) h2
  have hfree : ∃ m3, free m2 (m.obj a).data = .ok m3 ∧ m3.next = m2.next ∧ m3.obj = m2.obj ∧
      ∀ id, m3.blk id = if (m.obj a).data = some id then none else m2.blk id := by
    cases hd : (m.obj a).data with
    | none => exact ⟨m2, rfl, rfl, rfl, fun id => by simp⟩
    | some id =>
      have hp : m.blk id = some l := by have := ha.points; rw [hd] at this; exact this
      have hb : m2.blk id = some l := by rw [hb2, if_neg (hfr id hd), hb1, if_neg (hfr id hd), hp]
      refine ⟨_, free_ok hb, rfl, rfl, fun j => ?_⟩
      rw [setBlk_blk]
      by_cases h : j = id
      · subst h; simp
      · simp [h, Ne.symm h]
  obtain ⟨m3, e3, hn3, ho3, hb3⟩ := hfree
  obtain ⟨m4, e4, hn4, ho4, hb4⟩ := alloc_ex (setObj m3 a ⟨none, sz⟩) (n := N) h3
  have hn : (setObj m3 a ⟨none, sz⟩).next = m.next + 1 := by rw [setObj_next, hn3, hn2, hn1]
  rw [hn] at e4 hn4 hb4
  refine ⟨m1, m2, m3, m4, e1, ho1, e2, ho2.trans ho1, e3, ho3.trans (ho2.trans ho1), e4, hn4, ?_, ?_⟩
  · rw [ho4, setObj, ho3, ho2, ho1]
  · intro id
    rw [hb4, setObj_blk, hb3, hb2, hb1]
    by_cases h : id = m.next
    · subst h
      simp [hw.data_ne_fresh a (Nat.le_refl m.next)]
    · simp [h]

/-- What `resize` should give: the common prefix, then elements without a value. -/
def resized (l : List (Option T)) (N : Nat) : List (Option T) := l.take N ++ List.replicate (N - l.length) none

/-- Resizing keeps the common prefix and changes nothing else. Storage is lost only when a vector of length 0 that owns
an (empty) block is resized. -/
theorem resize_correct (be : Beyond T) {m : Mem T} (hw : Wf m) {a : Nat} {l : List (Option T)} (ha : Holds m a l)
    (N : Nat) : ∃ m', vResize be m a N = .ok m' ∧ Changes m m' a (resized l N) ∧
      (l ≠ [] ∨ (m.obj a).data = none → NoLeak m → NoLeak m') := by
  have hsz : (m.obj a).size = l.length := ha.1
  unfold vResize
  by_cases h0 : (m.obj a).size = 0
  · rw [if_pos h0]
    have hl : l = [] := by
      apply List.eq_nil_of_length_eq_zero; omega
    subst hl
    obtain ⟨m1, e1, hn1, ho1, hb1⟩ := alloc_ex (setObj m a { m.obj a with size := (N : Int) }) (n := N) (by omega)
    simp only [e1, Outcome.ok_bind, setObj_next]
    simp only [setObj_next, setObj_blk] at hn1 hb1
    refine ⟨_, rfl, ?_, ?_⟩
    · refine fresh_changes (new := m.next) hw (Nat.le_refl _) (by simp [hn1]) ?_ ?_
      · simp [setObj, ho1, resized]
      · intro id
        simp only [setObj_blk, hb1, resized]
        split_ifs <;> simp_all
    · intro hc hn
      have hd : (m.obj a).data = none := by simpa using hc
      refine (realloc_updates (a := a) (l := resized [] N) (new := m.next) (m' := _) hw (Nat.le_refl _) ?_ ?_ ?_).noLeak hn
      · simp [hn1]
      · simp [setObj, ho1, resized]
      · intro id
        simp only [setObj_blk, hb1, resized, hd]
        split_ifs <;> simp_all
  rw [if_neg h0]
  have hl : l ≠ [] := by
    intro e; subst e; simp at hsz; omega
  suffices h : ∃ m', (if (N : Int) > (m.obj a).size then
    (alloc m N).bind fun t =>
    (memcpy be t.2 (some t.1) (t.2.obj a).data (t.2.obj a).size).bind fun m =>
    (free m (m.obj a).data).bind fun m =>
    let m := setObj m a ⟨none, N⟩
    (alloc m N).bind fun r =>
    let m := setObj r.2 a { r.2.obj a with data := some r.1 }
    (memcpy be m (m.obj a).data (some t.1) N).bind fun m => free m (some t.1)
  else if (N : Int) < (m.obj a).size then
    (alloc m N).bind fun t =>
    (memcpy be t.2 (some t.1) (t.2.obj a).data N).bind fun m =>
    (free m (m.obj a).data).bind fun m =>
    let m := setObj m a ⟨none, N⟩
    (alloc m N).bind fun r =>
    let m := setObj r.2 a { r.2.obj a with data := some r.1 }
    (memcpy be m (m.obj a).data (some t.1) N).bind fun m => free m (some t.1)
  else .ok m) = .ok m' ∧ Updates m m' a (resized l N) by
    obtain ⟨m', e, hu⟩ := h
    exact ⟨m', e, hu.toChanges, fun _ => hu.noLeak⟩
  have tail : ∀ n0 : Nat, n0 = min N l.length → ∀ m4 : Mem T, m4.next = m.next + 2 →
      m4.obj = Function.update m.obj a ⟨none, N⟩ →
      (∀ id, m4.blk id = if id = m.next then some (l.take n0 ++ List.replicate (N - n0) none)
        else if id = m.next + 1 then some (List.replicate N none)
        else if (m.obj a).data = some id then none else m.blk id) →
      ∃ m', (memcpy be (setObj m4 a ⟨some (m.next + 1), N⟩) (some (m.next + 1)) (some m.next) N).bind
        (fun m' => free m' (some m.next)) = .ok m' ∧ Updates m m' a (resized l N) := by
    intro n0 hn0 m4 hn4 ho4 hb4
    have hlen : (l.take n0 ++ List.replicate (N - n0) (none : Option T)).length = N := by simp; omega
    obtain ⟨m5, e5, hn5, ho5, hb5⟩ := memcpy_ex be (m := setObj m4 a ⟨some (m.next + 1), N⟩) (d := m.next + 1)
      (p := some m.next) (ls := l.take n0 ++ List.replicate (N - n0) none) (ld := List.replicate N none) (n := N)
      (by simp) (by simp [hb4]) (by simp [Points, hb4]) (by omega) (by simp) (by omega)
    rw [e5, Outcome.ok_bind, free_ok (l := l.take n0 ++ List.replicate (N - n0) none) (by simp [hb5, hb4])]
    have hres : resized l N = l.take n0 ++ List.replicate (N - n0) none := by
      unfold resized
      have h1 : l.take N = l.take n0 := by
        rw [hn0]; rcases Nat.le_total N l.length with h | h
        · rw [Nat.min_eq_left h]
        · rw [Nat.min_eq_right h, List.take_length, List.take_of_length_le h]
      rw [h1]; congr 2; omega
    refine ⟨_, rfl, realloc_updates (new := m.next + 1) hw (by omega) (by simp [hn5, hn4]) ?_ ?_⟩
    · simp only [setBlk_obj, ho5, setObj, ho4, Function.update_idem, hres, hlen]
    · intro id
      simp only [setBlk_blk, hb5, setObj_blk, hb4, Int.toNat_natCast, hres]
      by_cases h1 : id = m.next
      · subst h1; simp [hw.data_ne_fresh a (Nat.le_refl m.next), hw.fresh m.next (Nat.le_refl _)]
      · by_cases h2 : id = m.next + 1
        · subst h2
          simp [List.take_of_length_le (Nat.le_of_eq hlen)]
        · simp [h1, h2]
  by_cases h1 : (N : Int) > (m.obj a).size
  · rw [if_pos h1]
    obtain ⟨m1, m2, m3, m4, e1, ho1, e2, ho2, e3, ho3, e4, hn4, ho4, hb4⟩ :=
      regrow be hw ha N l.length N N (by omega) (by omega) (by omega) (by omega)
    simp only [e1, ho1, hsz, e2, ho2, e3, e4, ho4, Outcome.ok_bind, Function.update_self, setObj_same]
    exact tail l.length (by omega) m4 hn4 ho4 (by simpa using hb4)
  rw [if_neg h1]
  by_cases h2 : (N : Int) < (m.obj a).size
  · rw [if_pos h2]
    obtain ⟨m1, m2, m3, m4, e1, ho1, e2, ho2, e3, ho3, e4, hn4, ho4, hb4⟩ :=
      regrow be hw ha N N N N (by omega) (by omega) (by omega) (by omega)
    simp only [e1, ho1, e2, ho2, e3, e4, ho4, Outcome.ok_bind, Function.update_self, setObj_same]
    exact tail N (by omega) m4 hn4 ho4 (by simpa using hb4)
  rw [if_neg h2]
  have hN : N = l.length := by omega
  have hr : resized l N = l := by simp [resized, hN]
  exact ⟨m, rfl, ⟨⟨hw, by rw [hr]; exact ha, fun _ _ _ h => h⟩, fun h => h⟩⟩

/-- A vector that was shrunk to length 0 keeps its empty block; growing it again loses that block. -/
theorem resize_leaks (be : Beyond T) {m : Mem T} (hw : Wf m) {a id : Nat} (ha : Holds m a [])
    (hd : (m.obj a).data = some id) (N : Nat) :
    ∃ m', vResize be m a N = .ok m' ∧ ¬ NoLeak m' := by
  have hsz : (m.obj a).size = 0 := by simpa using ha.1
  have hb : m.blk id = some [] := by have := ha.2; simpa [hd] using this
  unfold vResize
  rw [if_pos hsz]
  obtain ⟨m1, e1, hn1, ho1, hb1⟩ := alloc_ex (setObj m a { m.obj a with size := (N : Int) }) (n := N) (by omega)
  simp only [e1, Outcome.ok_bind, setObj_next]
  simp only [setObj_next, setObj_blk] at hn1 hb1
  have hne : id ≠ m.next := fun e => hw.data_ne_fresh a (Nat.le_refl _) (e ▸ hd)
  refine ⟨_, rfl, fun hn => ?_⟩
  obtain ⟨c, hc⟩ := hn id (by simp [hb1, hne, hb])
  by_cases hca : c = a
  · subst hca
    simp at hc; omega
  · simp only [setObj_obj, hca, if_false, ho1] at hc
    have := hw.apart a c (Ne.symm hca) (by rw [hd, hc])
    rw [hd] at this; cases this

/-! ## C25: append -/

/-- Strictly, every `append` reads one element past the end of its temporary: undefined behaviour for every vector and
every appended value. -/
theorem append_overreads {m : Mem T} (hw : Wf m) (a : Nat) (v : Arg T) : vAppend none m a v = .ub := by
  obtain ⟨l, ha⟩ := hw.holds a
  have hsz : (m.obj a).size = l.length := ha.1
  obtain ⟨m1, m2, m3, m4, e1, ho1, e2, ho2, e3, ho3, e4, hn4, ho4, hb4⟩ :=
    regrow none hw ha l.length l.length (l.length + 1) (l.length + 1) (by omega) (by omega) (by omega) (by omega)
  unfold vAppend
  simp only [hsz, e1, ho1, e2, ho2, e3, ho3, setObj_same, e4, ho4, Outcome.ok_bind, Function.update_self]
  rw [memcpy_over none (ld := List.replicate (l.length + 1) none) (ls := l) (by simp) (by simp [hb4])
    (by simp [hb4]) (by omega) (by simp) (by omega)]
  rfl

/-- On machines where reading behind a block gives unspecified bytes, `append(value)` adds the value at the end, keeps
everything before it, and changes nothing else. -/
theorem append_correct_partial (g : Nat → Option T) {m : Mem T} (hw : Wf m) {a : Nat} {l : List (Option T)}
    (ha : Holds m a l) (v : T) :
    ∃ m', vAppend (some g) m a (.val v) = .ok m' ∧ Updates m m' a (l ++ [some v]) := by
  have hsz : (m.obj a).size = l.length := ha.1
  obtain ⟨m1, m2, m3, m4, e1, ho1, e2, ho2, e3, ho3, e4, hn4, ho4, hb4⟩ :=
    regrow (some g) hw ha l.length l.length (l.length + 1) (l.length + 1) (by omega) (by omega) (by omega) (by omega)
  unfold vAppend
  simp only [hsz, e1, ho1, e2, ho2, e3, ho3, setObj_same, e4, ho4, Outcome.ok_bind, Function.update_self]
  have ht : ((l.length : Int) + 1).toNat = l.length + 1 := by omega
  rw [memcpy_over (some g) (ld := List.replicate (l.length + 1) none) (ls := l) (by simp) (by simp [hb4, ht])
    (by simp [hb4]) (by omega) (by simp) (by omega)]
  simp only [Outcome.ok_bind]
  rw [free_ok (l := l) (by simp [setBlk_blk, hb4])]
  simp only [Outcome.ok_bind, Arg.read, setBlk_obj, setObj_same]
  refine ⟨setBlk (setBlk (setObj m4 a ⟨some (m.next + 1), l.length + 1⟩) (m.next + 1) (some (l ++ [some v]))) m.next none,
    ?_, realloc_updates (new := m.next + 1) hw (by omega) (by simp [hn4]) ?_ ?_⟩
  · simp only [store, setBlk_blk, show m.next + 1 ≠ m.next by omega, if_true, if_false]
    rw [if_pos (by simp [ht]; omega)]
    simp [ht, setBlk, Function.update_comm (show m.next + 1 ≠ m.next by omega)]
  · simp [setObj, ho4]
  · intro id
    simp only [setBlk_blk, setObj_blk, hb4]
    by_cases h1 : id = m.next
    · subst h1; simp [hw.data_ne_fresh a (Nat.le_refl m.next), hw.fresh m.next (Nat.le_refl _)]
    · by_cases h2 : id = m.next + 1
      · subst h2; simp
      · simp [h1, h2]

/-- Appending an element of the vector itself (`v.append(v[i])`) uses released storage even on such machines. -/
theorem append_own_element (g : Nat → Option T) {m : Mem T} (hw : Wf m) {a : Nat} (i : Int) :
    vAppend (some g) m a (elemArg m a i) = .ub := by
  obtain ⟨l, ha⟩ := hw.holds a
  have hsz : (m.obj a).size = l.length := ha.1
  obtain ⟨m1, m2, m3, m4, e1, ho1, e2, ho2, e3, ho3, e4, hn4, ho4, hb4⟩ :=
    regrow (some g) hw ha l.length l.length (l.length + 1) (l.length + 1) (by omega) (by omega) (by omega) (by omega)
  unfold vAppend
  simp only [hsz, e1, ho1, e2, ho2, e3, ho3, setObj_same, e4, ho4, Outcome.ok_bind, Function.update_self]
  have ht : ((l.length : Int) + 1).toNat = l.length + 1 := by omega
  rw [memcpy_over (some g) (ld := List.replicate (l.length + 1) none) (ls := l) (by simp) (by simp [hb4, ht])
    (by simp [hb4]) (by omega) (by simp) (by omega)]
  simp only [Outcome.ok_bind]
  rw [free_ok (l := l) (by simp [setBlk_blk, hb4])]
  simp only [Outcome.ok_bind, Arg.read, elemArg]
  cases hd : (m.obj a).data with
  | none => rfl
  | some id =>
    have h1 : id ≠ m.next := fun e => hw.data_ne_fresh a (Nat.le_refl _) (e ▸ hd)
    have h2 : id ≠ m.next + 1 := fun e => hw.data_ne_fresh a (Nat.le_succ _) (by rw [hd, e])
    simp [load, setBlk_blk, hb4, h1, h2, hd]

/-- Appending a non-empty vector reads past the end of the temporary as well. -/
theorem appendVec_overreads {m : Mem T} (hw : Wf m) (a b : Nat) (hb : (m.obj b).size ≠ 0) : vAppendVec none m a b = .ub := by
  obtain ⟨l, ha⟩ := hw.holds a
  obtain ⟨lb, hlb⟩ := hw.holds b
  have hsz : (m.obj a).size = l.length := ha.1
  have hszb : (m.obj b).size = lb.length := hlb.1
  have hpos : 0 < lb.length := by omega
  obtain ⟨m1, m2, m3, m4, e1, ho1, e2, ho2, e3, ho3, e4, hn4, ho4, hb4⟩ :=
    regrow none hw ha l.length l.length (l.length + lb.length) (l.length + lb.length)
      (by omega) (by omega) (by omega) (by omega)
  unfold vAppendVec
  simp only [hsz, hszb, e1, ho1, e2, ho2, e3, ho3, setObj_same, e4, ho4, Outcome.ok_bind, Function.update_self]
  have ht : ((l.length : Int) + lb.length).toNat = l.length + lb.length := by omega
  rw [memcpy_over none (ld := List.replicate (l.length + lb.length) none) (ls := l) (by simp) (by simp [hb4, ht])
    (by simp [hb4]) (by omega) (by simp) (by omega)]
  rfl

theorem memcpy_beyond (g : Nat → Option T) {m : Mem T} {d s : Nat} {ld ls : List (Option T)} {n : Nat}
    (hne : d ≠ s) (hd : m.blk d = some ld) (hs : m.blk s = some ls) (h1 : n = ld.length) (h2 : ls.length ≤ n) :
    ∃ junk, junk.length = n - ls.length ∧ memcpy (some g) m (some d) (some s) n = .ok (setBlk m d (some (ls ++ junk))) := by
  rcases Nat.lt_or_ge ls.length n with h | h
  · refine ⟨(List.range (n - ls.length)).map g, by simp, ?_⟩
    rw [memcpy_over (some g) hne hd hs (by omega) (by omega) (by omega)]
    simp [h1]
  · refine ⟨[], by simp; omega, ?_⟩
    rw [memcpy_ok hne hd hs (by omega) (by omega) (by omega)]
    have : n = ls.length := by omega
    rw [Int.toNat_natCast, List.take_of_length_le (by omega), List.drop_eq_nil_of_le (by omega)]

/-- On machines where reading behind a block gives unspecified bytes, `append(vector)` adds all elements of the argument
at the end, also when a vector is appended to itself. -/
theorem appendVec_correct_partial (g : Nat → Option T) {m : Mem T} (hw : Wf m) {a b : Nat} {l : List (Option T)}
    {vals : List T} (ha : Holds m a l) (hb : Holds m b (vals.map some)) :
    ∃ m', vAppendVec (some g) m a b = .ok m' ∧ Updates m m' a (l ++ vals.map some) := by
  have hsz : (m.obj a).size = l.length := ha.1
  have hszb : (m.obj b).size = vals.length := by simpa using hb.1
  obtain ⟨m1, m2, m3, m4, e1, ho1, e2, ho2, e3, ho3, e4, hn4, ho4, hb4⟩ :=
    regrow (some g) hw ha l.length l.length (l.length + vals.length) (l.length + vals.length)
      (by omega) (by omega) (by omega) (by omega)
  unfold vAppendVec
  simp only [hsz, hszb, e1, ho1, e2, ho2, e3, ho3, setObj_same, e4, ho4, Outcome.ok_bind, Function.update_self]
  have ht : ((l.length : Int) + vals.length).toNat = l.length + vals.length := by omega
  have hc : ((l.length : Int) + vals.length) = ((l.length + vals.length : Nat) : Int) := by push_cast; rfl
  obtain ⟨junk, hj, e5⟩ := memcpy_beyond g (m := setObj m4 a ⟨some (m.next + 1), l.length + vals.length⟩)
    (d := m.next + 1) (s := m.next) (ld := List.replicate (l.length + vals.length) none) (ls := l)
    (n := l.length + vals.length) (by omega) (by simp [hb4, ht]) (by simp [hb4]) (by simp) (by omega)
  rw [hc] at e5 ⊢
  rw [e5]
  simp only [Outcome.ok_bind]
  rw [free_ok (l := l) (by simp [setBlk_blk, hb4])]
  simp only [Outcome.ok_bind, setBlk_obj, setObj_same]
  rw [copyLoop_ok (fun m i => at' m b (i - l.length)) vals l.length (id := m.next + 1) (l := l ++ junk)
    (by simp) (by simp [setBlk_blk]) (by simp; omega) _ _ rfl]
  · refine ⟨_, rfl, realloc_updates (new := m.next + 1) hw (by omega) (by simp [hn4]) ?_ ?_⟩
    · simp [setObj, ho4]
    · intro id
      simp only [setBlk_blk, setObj_blk, hb4]
      by_cases h1 : id = m.next
      · subst h1; simp [hw.data_ne_fresh a (Nat.le_refl m.next), hw.fresh m.next (Nat.le_refl _)]
      · by_cases h2 : id = m.next + 1
        · subst h2; simp; omega
        · simp [h1, h2]
  · intro k hk
    rw [show ((l.length + k : Nat) : Int) - l.length = k by omega]
    by_cases hab : b = a
    · subst hab
      have hl : l = vals.map some := ha.unique hb
      have hlen : l.length = vals.length := by rw [hl]; simp
      refine at'_ok (l := l ++ (vals.take k).map some ++ junk.drop k) ⟨?_, ?_⟩ (by simp; omega) ?_
      · simp; omega
      · simp
      · rw [List.getElem_append_left (by simp; omega), List.getElem_append_left (by omega)]
        simp [hl]
    · refine at'_map ?_ hk
      refine ⟨by simp [setObj_obj, hab, ho4, hszb], ?_⟩
      have h2 := hb.2
      simp only [setBlk_obj, setObj_obj, hab, if_false, ho4, ne_eq, not_false_eq_true, Function.update_of_ne]
      cases hd : (m.obj b).data with
      | none => simpa [hd] using h2
      | some id =>
        simp only [hd] at h2 ⊢
        have h3 : id ≠ m.next := fun e => hw.data_ne_fresh b (Nat.le_refl _) (e ▸ hd)
        have h4 : id ≠ m.next + 1 := fun e => hw.data_ne_fresh b (Nat.le_succ _) (by rw [hd, e])
        have h5 : (m.obj a).data ≠ some id := by
          intro e
          have := hw.apart a b (Ne.symm hab) (by rw [e, hd])
          rw [e] at this; cases this
        simp [setBlk_blk, h3, h4, hb4, h5, h2]

/-! ## C24: self-assignment -/

/-- Assigning a non-empty vector or sparse cell to itself is undefined behaviour. -/
theorem self_assign_ub {m : Mem T} (hw : Wf m) (a : Nat) (h : (m.obj a).size ≠ 0) : vAssign m a a = .ub := by
  obtain ⟨l, ha⟩ := hw.holds a
  have hsz : (m.obj a).size = l.length := ha.1
  obtain ⟨m1, h1, hn1, ho1, hb1⟩ := free_own hw a
  unfold vAssign
  simp only [h1, Outcome.ok_bind, setObj_same, ho1, hsz]
  obtain ⟨m2, h2, hn2, ho2, hb2⟩ := alloc_ex (setObj (setObj m1 a { data := none, size := (l.length : Int) }) a
    { data := none, size := (l.length : Int) }) (n := l.length) (by omega)
  simp only [setObj_next, setObj_blk, hn1, Int.toNat_natCast] at hn2 hb2 h2
  simp only [h2, Outcome.ok_bind, ho2, setObj_same]
  obtain ⟨n, hn⟩ : ∃ n, l.length = n + 1 := ⟨l.length - 1, by omega⟩
  unfold copyLoop
  rw [show ((l.length : Int) - 0).toNat = n + 1 by omega, List.range_succ_eq_map]
  have hat : at' (setObj m2 a { data := some m.next, size := (l.length : Int) }) a 0 = .ub := by
    simp [at', hn, load, hb2]
  simp [List.foldlM_cons, hat]

/-- Copying a non-empty vector or sparse cell onto itself is undefined behaviour. -/
theorem self_copy_ub (be : Beyond T) {m : Mem T} (hw : Wf m) (a : Nat) (h : (m.obj a).size ≠ 0) : vCopy be m a a = .ub := by
  obtain ⟨l, ha⟩ := hw.holds a
  have hsz : (m.obj a).size = l.length := ha.1
  obtain ⟨m1, h1, hn1, ho1, hb1⟩ := free_own hw a
  unfold vCopy
  simp only [h1, Outcome.ok_bind, setObj_same, ho1, hsz]
  obtain ⟨m2, h2, hn2, ho2, hb2⟩ := alloc_ex (setObj (setObj m1 a { data := none, size := (l.length : Int) }) a
    { data := none, size := (l.length : Int) }) (n := l.length) (by omega)
  simp only [setObj_next, setObj_blk, hn1, Int.toNat_natCast] at hn2 hb2 h2
  simp only [h2, Outcome.ok_bind, ho2, setObj_same]
  unfold memcpy
  rw [if_neg (by omega)]
  simp

/-- Only empty objects survive: they stay empty. -/
theorem self_assign_partial {m : Mem T} (hw : Wf m) {a : Nat} (h : Holds m a []) :
    ∃ m', vAssign m a a = .ok m' ∧ Updates m m' a [] := by
  have hsz : (m.obj a).size = 0 := by simpa using h.1
  obtain ⟨m1, h1, hn1, ho1, hb1⟩ := free_own hw a
  unfold vAssign
  simp only [h1, Outcome.ok_bind, setObj_same, ho1, hsz]
  obtain ⟨m2, h2, hn2, ho2, hb2⟩ := alloc_ex (setObj (setObj m1 a { data := none, size := 0 }) a
    { data := none, size := 0 }) (n := 0) (by omega)
  simp only [setObj_next, setObj_blk, hn1] at hn2 hb2 h2
  simp only [h2, Outcome.ok_bind, ho2, setObj_same]
  refine ⟨_, rfl, realloc_updates (new := m.next) hw (Nat.le_refl _) ?_ ?_ ?_⟩
  · simp [hn2]
  · simp [setObj, ho2, ho1]
  · intro id
    simp only [setObj_blk, hb2, hb1]
    simp

/-! ## Swap, element writes, equality -/

/-- Swap exchanges the contents of two vectors and changes nothing else; nothing can fail. -/
theorem swap_correct {m : Mem T} (hw : Wf m) {a b : Nat} {la lb : List (Option T)} (ha : Holds m a la)
    (hb : Holds m b lb) : Wf (vSwap m a b) ∧ Holds (vSwap m a b) a lb ∧ Holds (vSwap m a b) b la ∧
      (∀ c, c ≠ a → c ≠ b → ∀ k, Holds m c k → Holds (vSwap m a b) c k) ∧ (NoLeak m → NoLeak (vSwap m a b)) := by
  have hblk : (vSwap m a b).blk = m.blk := rfl
  have hnext : (vSwap m a b).next = m.next := rfl
  have hobj : ∀ c, (vSwap m a b).obj c = m.obj (if c = a then b else if c = b then a else c) := by
    intro c
    by_cases hab : a = b
    · subst hab
      by_cases hc : c = a
      · subst hc; simp [vSwap]
      · simp [vSwap, setObj_obj, hc]
    · by_cases hc : c = a
      · subst hc; simp [vSwap, setObj_obj, hab, Ne.symm hab]
      · by_cases hc' : c = b
        · subst hc'; simp [vSwap, setObj_obj, hc, hab]
        · simp [vSwap, setObj_obj, hc, hc']
  have hh : ∀ c k, Holds m (if c = a then b else if c = b then a else c) k → Holds (vSwap m a b) c k := by
    intro c k h
    unfold Holds
    rw [hobj, hblk]
    exact h
  refine ⟨⟨?_, ?_, ?_⟩, hh a lb (by simpa using hb), ?_, ?_, ?_⟩
  · intro id h; rw [hblk]; exact hw.fresh id h
  · intro c
    obtain ⟨k, hk⟩ := hw.holds (if c = a then b else if c = b then a else c)
    exact ⟨k, hh c k hk⟩
  · intro c d hcd he
    rw [hobj] at he ⊢
    rw [hobj] at he
    refine hw.apart _ _ ?_ he
    split_ifs <;> omega
  · refine hh b la ?_
    by_cases hab : b = a
    · subst hab; have := ha.unique hb; subst this; simpa using hb
    · simpa [hab] using ha
  · intro c h1 h2 k hk
    exact hh c k (by simpa [h1, h2] using hk)
  · intro hn id hid
    obtain ⟨c, hc⟩ := hn id hid
    refine ⟨if c = a then b else if c = b then a else c, ?_⟩
    rw [hobj, ← hc]
    congr 2
    split_ifs <;> simp_all

/-- Replacing the block of `a` in place. -/
theorem inplace_updates {m : Mem T} (hw : Wf m) {a id : Nat} {l l' : List (Option T)} (ha : Holds m a l)
    (hd : (m.obj a).data = some id) (hl : l'.length = l.length) : Updates m (setBlk m id (some l')) a l' := by
  have hsz : (m.obj a).size = l.length := ha.1
  have hb : m.blk id = some l := by have := ha.2; simpa [hd] using this
  have hh : Holds (setBlk m id (some l')) a l' := by simp [Holds, hd, hsz, hl]
  have hf : ∀ b, b ≠ a → ∀ k, Holds m b k → Holds (setBlk m id (some l')) b k := by
    intro b hba k hk
    refine ⟨hk.1, ?_⟩
    have h2 := hk.2
    rw [setBlk_obj]
    cases hd' : (m.obj b).data with
    | none => simpa [hd'] using h2
    | some j =>
      simp only [hd'] at h2 ⊢
      have : j ≠ id := by
        intro e
        have := hw.apart a b (Ne.symm hba) (by rw [hd, hd', e])
        rw [hd] at this; cases this
      rw [setBlk_blk, if_neg this, h2]
  refine ⟨⟨⟨?_, ?_, ?_⟩, hh, hf⟩, ?_⟩
  · intro j hj
    rw [setBlk_blk, if_neg]
    · exact hw.fresh j hj
    · intro e; have := hw.fresh j hj; rw [e, hb] at this; cases this
  · intro b
    by_cases hba : b = a
    · exact ⟨l', hba ▸ hh⟩
    · obtain ⟨k, hk⟩ := hw.holds b
      exact ⟨k, hf b hba k hk⟩
  · exact hw.apart
  · intro hn j hj
    by_cases h : j = id
    · exact ⟨a, by rw [h]; exact hd⟩
    · rw [setBlk_blk, if_neg h] at hj
      exact hn j hj

/-- An element write changes that element only. -/
theorem set_correct {m : Mem T} (hw : Wf m) {a : Nat} {l : List (Option T)} (ha : Holds m a l) {i : Nat}
    (hi : i < l.length) (v : T) : ∃ m', vSet m a i v = .ok m' ∧ Updates m m' a (l.set i (some v)) := by
  have hsz : (m.obj a).size = l.length := ha.1
  unfold vSet
  rw [if_pos (by omega)]
  have h2 := ha.2
  cases hd : (m.obj a).data with
  | none => simp only [hd] at h2; subst h2; simp at hi
  | some id =>
    simp only [hd] at h2
    refine ⟨setBlk m id (some (l.set i (some v))), ?_, inplace_updates hw ha hd (by simp)⟩
    simp [store, h2, hi]

/-- Equality is element-wise with equal lengths. -/
theorem eq_correct [DecidableEq T] {m : Mem T} {a b : Nat} {x y : List T} (ha : Holds m a (x.map some))
    (hb : Holds m b (y.map some)) : vEq m a b = .ok (decide (x = y)) := by
  have hsa : (m.obj a).size = x.length := by simpa using ha.1
  have hsb : (m.obj b).size = y.length := by simpa using hb.1
  unfold vEq
  by_cases hl : x.length = y.length
  · rw [if_neg (by simp [hsa, hsb, hl])]
    have main : ∀ n, n ≤ x.length → (List.range n).foldlM (fun acc (i : Nat) =>
        if acc = true then (at' m a i).bind fun x => (at' m b i).bind fun y => .ok (decide (x = y)) else .ok false) true =
        (.ok (decide (x.take n = y.take n)) : Outcome Bool) := by
      intro n hn
      induction n with
      | zero => simp
      | succ n ih =>
        rw [List.range_succ, List.foldlM_append, ih (by omega)]
        simp only [Outcome.bind_eq, Outcome.ok_bind, List.foldlM_cons, List.foldlM_nil]
        rw [at'_map ha (k := n) (by omega), at'_map hb (k := n) (by omega)]
        have hx := List.take_succ_eq_append_getElem (by omega : n < x.length)
        have hy := List.take_succ_eq_append_getElem (by omega : n < y.length)
        have hiff : x.take (n + 1) = y.take (n + 1) ↔ x.take n = y.take n ∧ x[n] = y[n] := by
          rw [hx, hy]
          constructor
          · intro e
            have := List.append_inj e (by simp; omega)
            exact ⟨this.1, by simpa using this.2⟩
          · rintro ⟨e1, e2⟩; rw [e1, e2]
        by_cases h : x.take n = y.take n
        · simp only [h, decide_true, if_true, Outcome.ok_bind, Outcome.pure_eq, hiff, true_and]
        · simp only [h, decide_false, Outcome.ok_bind, Outcome.pure_eq, hiff, false_and, Bool.false_eq_true, if_false]
    have := main x.length (Nat.le_refl _)
    rw [hsa, Int.toNat_natCast, this]
    have e1 : x.take x.length = x := by simp
    have e2 : y.take x.length = y := by rw [hl]; simp
    rw [e1, e2]
  · rw [if_pos (by rw [hsa, hsb]; omega)]
    have : x ≠ y := fun e => hl (by rw [e])
    simp [this]

/-! ## Scaling -/

/-- Scaling by a separate value multiplies every element. -/
theorem mulEq_correct [Mul T] {m : Mem T} (hw : Wf m) {a : Nat} {x : List T} (ha : Holds m a (x.map some)) (v : T) :
    ∃ m', vMulEq m a (.val v) = .ok m' ∧ Updates m m' a ((x.map (· * v)).map some) := by
  have hsa : (m.obj a).size = x.length := by simpa using ha.1
  unfold vMulEq
  have h2 := ha.2
  cases hd : (m.obj a).data with
  | none =>
    simp only [hd] at h2
    have : x = [] := by simpa using h2
    subst this
    refine ⟨m, ?_, ⟨⟨hw, ha, fun _ _ _ h => h⟩, fun h => h⟩⟩
    rw [hsa]; rfl
  | some id =>
    simp only [hd] at h2
    rw [hsa, show (0 : Int) = ((0 : Nat) : Int) from rfl,
      copyLoop_ok _ (x.map (· * v)) 0 (id := id) (l := x.map some) hd h2 (by simp) _ _ (by simp)]
    · refine ⟨_, rfl, ?_⟩
      have := inplace_updates (l' := (x.map (· * v)).map some) hw ha hd (by simp)
      simpa [List.drop_eq_nil_of_le] using this
    · intro k hk
      rw [Nat.zero_add]
      have hk' : k < x.length := by simpa using hk
      rw [at'_ok (l := ((x.map (· * v)).take k).map some ++ (x.map some).drop k) (v := x[k]) ⟨?_, ?_⟩ (by simp; omega) ?_]
      · simp [Arg.read]
      · simp [hsa]; omega
      · simp [hd]
      · rw [List.getElem_append_right (by simp; omega)]
        simp [Nat.min_eq_left (Nat.le_of_lt hk')]

/-- Scaling by an element of the vector itself (`v *= v[0]`): the first step changes the factor, so all later elements
are multiplied by its square. -/
theorem mulEq_own_element [Mul T] {m : Mem T} (hw : Wf m) {a : Nat} {x0 : T} {x : List T}
    (ha : Holds m a ((x0 :: x).map some)) :
    ∃ m', vMulEq m a (elemArg m a 0) = .ok m' ∧
      Updates m m' a ((x0 * x0 :: x.map (· * (x0 * x0))).map some) := by
  have hsa : (m.obj a).size = (x0 :: x).length := by simpa using ha.1
  unfold vMulEq
  have h2 := ha.2
  cases hd : (m.obj a).data with
  | none => simp [hd] at h2
  | some id =>
    simp only [hd] at h2
    rw [hsa, show (0 : Int) = ((0 : Nat) : Int) from rfl,
      copyLoop_ok _ (x0 * x0 :: x.map (· * (x0 * x0))) 0 (id := id) (l := (x0 :: x).map some) hd h2 (by simp) _ _ (by simp)]
    · refine ⟨_, rfl, ?_⟩
      have := inplace_updates (l' := (x0 * x0 :: x.map (· * (x0 * x0))).map some) hw ha hd (by simp)
      simpa [List.drop_eq_nil_of_le] using this
    · intro k hk
      rw [Nat.zero_add]
      have hk' : k < (x0 :: x).length := by simpa using hk
      rw [at'_ok (l := ((x0 * x0 :: x.map (· * (x0 * x0))).take k).map some ++ ((x0 :: x).map some).drop k)
        (v := (x0 :: x)[k]) ⟨?_, ?_⟩ (by simp at hk' ⊢; omega) ?_]
      · cases k with
        | zero => simp [Arg.read, elemArg, load, hd]
        | succ k => simp [Arg.read, elemArg, load, hd]
      · simp at hk'; simp [hsa]; omega
      · simp [hd]
      · rw [List.getElem_append_right (by simp; omega)]
        simp only [List.length_map, List.length_take, List.length_cons, List.getElem_drop, List.getElem_map]
        simp at hk'
        congr 2
        omega

end MMSP.Heap
