import Verif.Proc
import Verif.BufferProps
import Mathlib.Data.List.FinRange
/-!
# Global reduction (C26)

Model of `global` in `include/MMSP.utility.cpp` 61-136 (the build with MPI; without MPI, and with one process, it returns
its argument).

Simplifications: `+=`, `min` and `max` of the element type are parameters; the message-passing assumptions are those of
`Verif/Proc.lean`; `from_buffer` overwrites its target completely.
-/

namespace MMSP.Global

open MMSP.Comm

/-- Contents of a message. -/
inductive Wire where
  | int (n : Int)
  | bytes (l : List Byte)

variable {T : Type}

/-- Conversion of the `unsigned long` result of `buffer_size` to `int`. -/
def toInt (n : Nat) : Int := ((n : Int) + 2 ^ 31) % 2 ^ 32 - 2 ^ 31

/-- The three operations on element values. -/
structure Ops (T : Type) where
  add : T → T → T
  min : T → T → T
  max : T → T → T

/-- `include/MMSP.utility.cpp` 88-94. -/
def combine (o : Ops T) (operation : String) (g temp : T) : T :=
  if operation = "add" ∨ operation = "sum" then o.add g temp
  else if operation = "min" ∨ operation = "minimum" then o.min g temp
  else if operation = "max" ∨ operation = "maximum" then o.max g temp
  else g

variable {ρ : Type}

/-- What happens with the second message, `include/MMSP.utility.cpp` 79-80 and 121-122. A message longer than the buffer
is an MPI error. -/
def decodeThen (c : Cell T) (size : Int) (k : T → Proc ρ Wire T) : Wire → Proc ρ Wire T
  | .bytes b => if (b.length : Int) > size then .fail else
    match c.dec b with
    | .ok (v, _) => k v
    | _ => .fail
  | .int _ => .fail

/-- What happens with the first message; `new char[size]` with a negative size throws. -/
def bodyThen (c : Cell T) (src : ρ) (t2 : Nat) (k : T → Proc ρ Wire T) : Wire → Proc ρ Wire T
  | .int size => if size < 0 then .fail else .recv src t2 (decodeThen c size k)
  | .bytes _ => .fail

/-- Receiving a size and then a value: `include/MMSP.utility.cpp` 77-85 and 119-126. -/
def recvValue (c : Cell T) (src : ρ) (t1 t2 : Nat) (k : T → Proc ρ Wire T) : Proc ρ Wire T :=
  .recv src t1 (bodyThen c src t2 k)

/-- Sending a size and then a value: `include/MMSP.utility.cpp` 99-103 and 112-116. -/
def sendValue (c : Cell T) (dst : ρ) (t1 t2 : Nat) (v : T) (k : Proc ρ Wire T) : Proc ρ Wire T :=
  .send dst t1 (.int (toInt (c.size v))) (if toInt (c.size v) < 0 then .fail else .send dst t2 (.bytes (c.enc v)) k)

/-- The loop of rank 0 over the other ranks, `include/MMSP.utility.cpp` 74-95. -/
def gather (c : Cell T) (op : T → T → T) (k : T → Proc ρ Wire T) : List ρ → T → Proc ρ Wire T
  | [], g => k g
  | i :: is, g => recvValue c i 100 200 fun temp => gather c op k is (op g temp)

/-- `include/MMSP.utility.cpp` 98-108. -/
def scatter (c : Cell T) (k : Proc ρ Wire T) (g : T) : List ρ → Proc ρ Wire T
  | [] => k
  | i :: is => sendValue c i 300 400 g (scatter c k g is)

/-- What the other ranks do after sending, `include/MMSP.utility.cpp` 118-126, 132, 135. -/
def await (c : Cell T) (root : ρ) : Proc ρ Wire T := recvValue c root 300 400 fun g => .barrier (.done g)

/-- `global` on every rank of `n + 1` processes, `include/MMSP.utility.cpp` 61-136. -/
def program (c : Cell T) (o : Ops T) (operation : String) (n : Nat) (value : Fin (n + 1) → T) (r : Fin (n + 1)) :
    Proc (Fin (n + 1)) Wire T :=
  if r = 0 then
    gather c (combine o operation) (fun g => scatter c (.barrier (.done g)) g ((List.finRange n).map Fin.succ))
      ((List.finRange n).map Fin.succ) (value 0)
  else sendValue c 0 100 200 (value r) (await c 0)

/-! ## Specification -/

/-- Left fold over the values of ranks 0, 1, …, n. -/
def rankFold (f : T → T → T) (n : Nat) (value : Fin (n + 1) → T) : T :=
  ((List.finRange n).map fun i => value i.succ).foldl f (value 0)

/-- The named operation; unknown names keep the left argument. -/
def named (o : Ops T) : String → T → T → T
  | "add" => o.add
  | "sum" => o.add
  | "min" => o.min
  | "minimum" => o.min
  | "max" => o.max
  | "maximum" => o.max
  | _ => fun g _ => g

/-! ## The reference run -/

variable [DecidableEq ρ]

theorem toInt_small {n : Nat} (h : n < 2 ^ 31) : toInt n = n := by
  unfold toInt
  have : (n : Int) < 2 ^ 31 := by exact_mod_cast h
  rw [Int.emod_eq_of_lt (by omega) (by omega)]
  omega

/-- One value goes from `s` to `d`. -/
theorem transfer {c : Cell T} (hc : RoundTrips c) {s d : ρ} (hne : s ≠ d) {t1 t2 : Nat} {v : T} (hv : c.Valid v)
    (hsz : c.size v < 2 ^ 31) {ks : Proc ρ Wire T} {kd : T → Proc ρ Wire T} {S : State ρ Wire T}
    (hs : S.proc s = sendValue c d t1 t2 v ks) (hd : S.proc d = recvValue c s t1 t2 kd)
    (h1 : S.chan s d t1 = []) (h2 : S.chan s d t2 = []) :
    ∃ w, SRun w S ((S.setProc s ks).setProc d (kd v)) := by
  obtain ⟨hlen, hdec⟩ := hc v hv
  have hi : toInt (c.size v) = c.size v := toInt_small hsz
  have hnl : ¬ ((c.enc v).length : Int) > (c.size v : Int) := by rw [hlen]; omega
  have hd' : c.dec (c.enc v) = .ok (v, c.size v) := by simpa using hdec []
  have hb : bodyThen c s t2 kd (.int (toInt (c.size v))) = .recv s t2 (decodeThen c (c.size v) kd) := by
    rw [hi]; simp only [bodyThen]; rw [if_neg (by omega)]
  have he : decodeThen c (c.size v) kd (.bytes (c.enc v)) = kd v := by
    simp only [decodeThen]; rw [if_neg hnl, hd']
  have hk : (if toInt (c.size v) < 0 then Proc.fail else .send d t2 (.bytes (c.enc v)) ks) =
      .send d t2 (.bytes (c.enc v)) ks := by
    rw [hi, if_neg (by omega)]
  have e1 := Strict.rdv S s d t1 _ _ _ hd hs h1
  rw [hb, hk] at e1
  have e2 := Strict.rdv ((S.setProc d (.recv s t2 (decodeThen c (c.size v) kd))).setProc s
    (.send d t2 (.bytes (c.enc v)) ks)) s d t2 (decodeThen c (c.size v) kd) (.bytes (c.enc v)) ks
    (by simp [setProc_proc, Ne.symm hne]) (by simp [setProc_proc]) (by simpa using h2)
  rw [he] at e2
  refine ⟨_, (SRun.single e1).trans (Eq.subst (motive := fun C => SRun 2 _ C) ?_ (SRun.single e2))⟩
  ext
  · simp only [setProc_proc]
    split_ifs <;> simp_all
  · rfl

theorem gather_run {c : Cell T} (hc : RoundTrips c) (op : T → T → T) (k : T → Proc ρ Wire T) (root : ρ) (value : ρ → T)
    (kw : Proc ρ Wire T) (l : List ρ) (hnd : l.Nodup) (h0 : root ∉ l) (hv : ∀ i ∈ l, c.Valid (value i) ∧ c.size (value i) < 2 ^ 31)
    (g : T) (S : State ρ Wire T) (hr : S.proc root = gather c op k l g)
    (hm : ∀ i ∈ l, S.proc i = sendValue c root 100 200 (value i) kw) (hch : ∀ s d t, S.chan s d t = []) :
    ∃ w, SRun w S ⟨fun r => if r = root then k ((l.map value).foldl op g) else if r ∈ l then kw else S.proc r, S.chan⟩ := by
  induction l generalizing g S with
  | nil =>
    refine ⟨0, Eq.subst (motive := fun C => SRun 0 _ C) ?_ (SRun.nil _)⟩
    ext r
    · by_cases h : r = root
      · subst h; simp [hr, gather]
      · simp [h]
    · rfl
  | cons i l ih =>
    have hi : i ≠ root := fun e => h0 (e ▸ List.mem_cons_self ..)
    have hnd' := List.nodup_cons.mp hnd
    obtain ⟨w1, r1⟩ := transfer hc hi (hv i (List.mem_cons_self ..)).1 (hv i (List.mem_cons_self ..)).2
      (hm i (List.mem_cons_self ..)) (by rw [hr]; rfl) (hch _ _ _) (hch _ _ _)
    obtain ⟨w2, r2⟩ := ih hnd'.2 (fun h => h0 (List.mem_cons_of_mem _ h)) (fun j hj => hv j (List.mem_cons_of_mem _ hj))
      (op g (value i)) ((S.setProc i kw).setProc root (gather c op k l (op g (value i)))) (by simp [setProc_proc])
      (fun j hj => by
        have h1 : j ≠ root := fun e => h0 (e ▸ List.mem_cons_of_mem _ hj)
        have h2 : j ≠ i := fun e => hnd'.1 (e ▸ hj)
        simp [setProc_proc, h1, h2, hm j (List.mem_cons_of_mem _ hj)])
      (fun s d t => by simp [hch])
    refine ⟨_, r1.trans (Eq.subst (motive := fun C => SRun w2 _ C) ?_ r2)⟩
    ext r
    · simp only [setProc_proc, List.map_cons, List.foldl_cons, List.mem_cons]
      split_ifs <;> simp_all
    · rfl

theorem scatter_run {c : Cell T} (hc : RoundTrips c) (k : Proc ρ Wire T) (root : ρ) (kw : T → Proc ρ Wire T) (g : T)
    (hg : c.Valid g ∧ c.size g < 2 ^ 31) (l : List ρ) (hnd : l.Nodup) (h0 : root ∉ l)
    (S : State ρ Wire T) (hr : S.proc root = scatter c k g l)
    (hm : ∀ i ∈ l, S.proc i = recvValue c root 300 400 kw) (hch : ∀ s d t, S.chan s d t = []) :
    ∃ w, SRun w S ⟨fun r => if r = root then k else if r ∈ l then kw g else S.proc r, S.chan⟩ := by
  induction l generalizing S with
  | nil =>
    refine ⟨0, Eq.subst (motive := fun C => SRun 0 _ C) ?_ (SRun.nil _)⟩
    ext r
    · by_cases h : r = root
      · subst h; simp [hr, scatter]
      · simp [h]
    · rfl
  | cons i l ih =>
    have hi : root ≠ i := fun e => h0 (e ▸ List.mem_cons_self ..)
    have hnd' := List.nodup_cons.mp hnd
    obtain ⟨w1, r1⟩ := transfer hc hi hg.1 hg.2 (by rw [hr]; rfl) (hm i (List.mem_cons_self ..)) (hch _ _ _) (hch _ _ _)
    obtain ⟨w2, r2⟩ := ih hnd'.2 (fun h => h0 (List.mem_cons_of_mem _ h))
      ((S.setProc root (scatter c k g l)).setProc i (kw g)) (by simp [setProc_proc, hi])
      (fun j hj => by
        have h1 : j ≠ root := fun e => h0 (e ▸ List.mem_cons_of_mem _ hj)
        have h2 : j ≠ i := fun e => hnd'.1 (e ▸ hj)
        simp [setProc_proc, h1, h2, hm j (List.mem_cons_of_mem _ hj)])
      (fun s d t => by simp [hch])
    refine ⟨_, r1.trans (Eq.subst (motive := fun C => SRun w2 _ C) ?_ r2)⟩
    ext r
    · simp only [setProc_proc, List.mem_cons]
      split_ifs <;> simp_all
    · rfl

omit [DecidableEq ρ] in
theorem combine_named (o : Ops T) (operation : String) : combine o operation = named o operation := by
  funext g t
  unfold named
  split <;> simp_all [combine]

/-- Assumptions: cells survive the buffer round trip, all values taking part fit an `int` byte count. -/
structure Fits (c : Cell T) (o : Ops T) (operation : String) (n : Nat) (value : Fin (n + 1) → T) : Prop where
  roundTrips : RoundTrips c
  inputs : ∀ r, c.Valid (value r) ∧ c.size (value r) < 2 ^ 31
  result : c.Valid (rankFold (named o operation) n value) ∧ c.size (rankFold (named o operation) n value) < 2 ^ 31

theorem reference_run {c : Cell T} {o : Ops T} {operation : String} {n : Nat} {value : Fin (n + 1) → T}
    (h : Fits c o operation n value) :
    ∃ w, SRun w (start (program c o operation n value)) (final fun _ => rankFold (named o operation) n value) := by
  have hl0 : (0 : Fin (n + 1)) ∉ (List.finRange n).map Fin.succ := by
    simp [Fin.succ_ne_zero]
  have hnd : ((List.finRange n).map Fin.succ).Nodup := List.Nodup.map (Fin.succ_injective n) (List.nodup_finRange n)
  have hmem : ∀ r : Fin (n + 1), r ≠ 0 → r ∈ (List.finRange n).map Fin.succ := by
    intro r hr
    obtain ⟨i, hi⟩ := Fin.exists_succ_eq.mpr hr
    exact List.mem_map.mpr ⟨i, List.mem_finRange i, hi⟩
  obtain ⟨w1, r1⟩ := gather_run h.roundTrips (combine o operation)
    (fun g => scatter c (.barrier (.done g)) g ((List.finRange n).map Fin.succ)) (0 : Fin (n + 1)) value (await c 0)
    ((List.finRange n).map Fin.succ) hnd hl0 (fun i _ => h.inputs i) (value 0) (start (program c o operation n value))
    (by simp [start, program])
    (fun i hi => by
      have : i ≠ 0 := fun e => hl0 (e ▸ hi)
      simp [start, program, this])
    (fun _ _ _ => rfl)
  have hfold : (((List.finRange n).map Fin.succ).map value).foldl (combine o operation) (value 0) =
      rankFold (named o operation) n value := by
    rw [combine_named, List.map_map]; rfl
  rw [hfold] at r1
  obtain ⟨w2, r2⟩ := scatter_run h.roundTrips (.barrier (.done (rankFold (named o operation) n value))) (0 : Fin (n + 1))
    (fun g => .barrier (.done g)) (rankFold (named o operation) n value) h.result ((List.finRange n).map Fin.succ) hnd hl0
    ⟨fun r => if r = 0 then scatter c (.barrier (.done (rankFold (named o operation) n value)))
      (rankFold (named o operation) n value) ((List.finRange n).map Fin.succ)
      else if r ∈ (List.finRange n).map Fin.succ then await c 0 else (start (program c o operation n value)).proc r,
      (start (program c o operation n value)).chan⟩ (by simp)
    (fun i hi => by
      have : i ≠ 0 := fun e => hl0 (e ▸ hi)
      simp only [this, if_false, hi, if_true]; rfl)
    (fun _ _ _ => rfl)
  have hb : ∀ S : State (Fin (n + 1)) Wire T,
      (∀ r, S.proc r = .barrier (.done (rankFold (named o operation) n value))) → (∀ s d t, S.chan s d t = []) →
      SRun 1 S (final fun _ => rankFold (named o operation) n value) := by
    intro S hS hc
    refine SRun.single (Eq.subst (motive := fun C => Strict 1 S C) ?_ (Strict.barrier S _ hS))
    ext
    · rfl
    · simp [hc, final]
  refine ⟨_, (r1.trans r2).trans (hb _ ?_ fun _ _ _ => rfl)⟩
  intro r
  by_cases hr : r = 0
  · simp [hr]
  · simp only [hr, if_false, hmem r hr, if_true]

/-! ## C26 -/

/-- Every run, whatever the delivery order and whichever sends are buffered: it is finite (at most `w` steps), it never
gets stuck before the end, no process runs into an error, every process that has finished returned the fold in rank order
with the named operation, and at the end no message is left over. -/
theorem global_correct {c : Cell T} {o : Ops T} {operation : String} {n : Nat} {value : Fin (n + 1) → T}
    (h : Fits c o operation n value) :
    ∃ w, ∀ m S, Run m (start (program c o operation n value)) S →
      m ≤ w ∧
      (∀ r, S.proc r ≠ .fail) ∧
      (∀ r b, S.proc r = .done b → b = rankFold (named o operation) n value) ∧
      ((∃ v S', Strict v S S') ∨ S = final fun _ => rankFold (named o operation) n value) := by
  obtain ⟨w, href⟩ := reference_run h
  refine ⟨w, fun m S hrun => ⟨?_, no_fail href hrun, fun r b hb => done_result href hrun hb, ?_⟩⟩
  · obtain ⟨w', hle, -⟩ := schedules href hrun
    omega
  · by_cases hf : S = final fun _ => rankFold (named o operation) n value
    · exact Or.inr hf
    · exact Or.inl (deadlock_free href hrun hf)

omit [DecidableEq ρ] in
/-- An unknown operation name gives the value of rank 0. -/
theorem unknown_operation (o : Ops T) (operation : String) (n : Nat) (value : Fin (n + 1) → T)
    (h : operation ∉ ["add", "sum", "min", "minimum", "max", "maximum"]) :
    rankFold (named o operation) n value = value 0 := by
  have : named o operation = fun g _ => g := by
    unfold named
    split <;> simp_all
  unfold rankFold
  rw [this]
  generalize (List.finRange n).map (fun i => value i.succ) = l
  generalize value 0 = g
  induction l with
  | nil => rfl
  | cons _ _ ih => simp

/-- Three ranks adding bytes. -/
def byteOps : Ops Byte := ⟨(· + ·), Min.min, Max.max⟩

example : Fits (primCell byteCodec) byteOps "sum" 2 (fun r => UInt8.ofNat (r.val + 3)) where
  roundTrips := primCell_roundTrips byteCodec
  inputs := fun _ => ⟨trivial, by simp [primCell, byteCodec]⟩
  result := ⟨trivial, by simp [primCell, byteCodec]⟩

example : rankFold (named byteOps "sum") 2 (fun r => UInt8.ofNat (r.val + 3)) = 12 := by decide

end MMSP.Global
