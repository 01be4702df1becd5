import Verif.ParallelExamples
import Verif.ParallelRunProps
import Verif.DensePFProps
import Verif.SparseRunProps
import Verif.ConvertFileProps
/-!
# The other deterministic examples compute in parallel what they compute serially
-/

namespace MMSP.ParallelRun

open Stencil (gridAt bump elem lapWeight lapLoop lapVecLoop lapSparseLoop lapFields neighbours_eq)
open DensePF (checked fill pass)

/-! ## Parts of right-hand sides -/

section Parts
variable {V W : Type}

/-- The part reads only the listed grids, each up to the listed distance from the node (`ReadsOnly` for results of any type). -/
def Reads (d : Nat) (reads : List (Nat × Int)) (F : (Nat → Access V) → (Nat → Int) → Outcome W) : Prop :=
  ∀ A B x x', (∀ j, j < d → x j = x' j) →
    (∀ q ∈ reads, ∀ y y', (∀ j, j < d → y j = y' j) → Near d q.2 x y → A q.1 y = B q.1 y') → F A x = F B x'

/-- The part returns a value satisfying `Q` if everything it reads from grid `k` satisfies `P k`. -/
def Gives (d : Nat) (P : Nat → V → Prop) (reads : List (Nat × Int)) (Q : W → Prop) (F : (Nat → Access V) → (Nat → Int) → Outcome W) : Prop :=
  ∀ A x, (∀ q ∈ reads, ∀ y, Near d q.2 x y → ∃ v, P q.1 v ∧ A q.1 y = .ok v) → ∃ v, Q v ∧ F A x = .ok v

variable {d : Nat} {reads : List (Nat × Int)} {P : Nat → V → Prop}

theorem Reads.const (o : Outcome W) : Reads (V := V) d reads fun _ _ => o := fun _ _ _ _ _ _ => rfl

theorem Reads.bind {U : Type} {F : (Nat → Access V) → (Nat → Int) → Outcome U} {G : U → (Nat → Access V) → (Nat → Int) → Outcome W} (hF : Reads d reads F)
    (hG : ∀ u, Reads d reads (G u)) : Reads d reads fun A x => (F A x).bind fun u => G u A x := by
  intro A B x x' hx h
  beta_reduce
  rw [hF A B x x' hx h]
  cases F B x' with
  | ok u => exact hG u A B x x' hx h
  | ub => rfl
  | abort c => rfl

theorem Reads.self {k : Nat} {ρ : Int} (hk : (k, ρ) ∈ reads) (hρ : 0 ≤ ρ) : Reads (V := V) d reads fun A x => A k x :=
  fun _ _ x x' hx h => h (k, ρ) hk x x' hx (near_self hρ x)

theorem near_step {d : Nat} (x : Nat → Int) (i : Nat) {k : Int} (hk : k = -1 ∨ k = 0 ∨ k = 1) : Near d 1 x (bump x i k) := by
  intro j _
  by_cases e : j = i
  · subst e; simp only [bump, Function.update_self]; omega
  · simp only [bump, Function.update_of_ne e]; omega

theorem Reads.step {k : Nat} (hk : (k, 1) ∈ reads) (i : Nat) {s : Int} (hs : s = -1 ∨ s = 0 ∨ s = 1) : Reads (V := V) d reads fun A x => A k (bump x i s) :=
  fun _ _ x _ hx h => h (k, 1) hk _ _ (bump_same hx i s) (near_step x i hs)

theorem Reads.fold {β ι : Type} {f : β → ι → (Nat → Access V) → (Nat → Int) → Outcome β} (l : List ι) (hf : ∀ b, ∀ i ∈ l, Reads d reads (f b i)) (b : β) :
    Reads d reads fun A x => l.foldlM (fun b i => f b i A x) b := by
  induction l generalizing b with
  | nil => exact Reads.const (.ok b)
  | cons i l ih =>
    intro A B x x' hx h
    simp only [List.foldlM_cons, Outcome.bind_eq]
    rw [hf b i (by simp) A B x x' hx h]
    cases f b i B x' with
    | ok u => exact ih (fun b j hj => hf b j (by simp [hj])) u A B x x' hx h
    | ub => rfl
    | abort c => rfl

theorem Gives.pure {Q : W → Prop} {v : W} (h : Q v) : Gives d P reads Q fun _ _ => .ok v := fun _ _ _ => ⟨v, h, rfl⟩

theorem Gives.bind {U : Type} {R : U → Prop} {Q : W → Prop} {F : (Nat → Access V) → (Nat → Int) → Outcome U} {G : U → (Nat → Access V) → (Nat → Int) → Outcome W}
    (hF : Gives d P reads R F) (hG : ∀ u, R u → Gives d P reads Q (G u)) : Gives d P reads Q fun A x => (F A x).bind fun u => G u A x := by
  intro A x h
  obtain ⟨u, hu, e⟩ := hF A x h
  beta_reduce
  rw [e, Outcome.ok_bind]
  exact hG u hu A x h

theorem Gives.mono {Q R : W → Prop} {F : (Nat → Access V) → (Nat → Int) → Outcome W} (h : Gives d P reads Q F) (hQ : ∀ v, Q v → R v) : Gives d P reads R F := by
  intro A x hA
  obtain ⟨v, hv, e⟩ := h A x hA
  exact ⟨v, hQ v hv, e⟩

theorem Gives.self {k : Nat} {ρ : Int} (hk : (k, ρ) ∈ reads) (hρ : 0 ≤ ρ) : Gives d P reads (P k) fun A x => A k x :=
  fun _ x h => h (k, ρ) hk x (near_self hρ x)

theorem Gives.step {k : Nat} (hk : (k, 1) ∈ reads) (i : Nat) {s : Int} (hs : s = -1 ∨ s = 0 ∨ s = 1) : Gives d P reads (P k) fun A x => A k (bump x i s) :=
  fun _ x h => h (k, 1) hk _ (near_step x i hs)

theorem Gives.fold {β ι : Type} {Q : β → Prop} {f : β → ι → (Nat → Access V) → (Nat → Int) → Outcome β} (l : List ι)
    (hf : ∀ b, Q b → ∀ i ∈ l, Gives d P reads Q (f b i)) {b : β} (hb : Q b) : Gives d P reads Q fun A x => l.foldlM (fun b i => f b i A x) b := by
  induction l generalizing b with
  | nil => exact Gives.pure hb
  | cons i l ih =>
    intro A x h
    simp only [List.foldlM_cons, Outcome.bind_eq]
    obtain ⟨u, hu, e⟩ := hf b hb i (by simp) A x h
    rw [e, Outcome.ok_bind]
    exact ih (fun b hb j hj => hf b hb j (by simp [hj])) hu A x h

end Parts

/-! ## Laplacians -/

section Laplacians
variable {α : Type} [Zero α] [One α] [Add α] [Sub α] [Mul α] [Div α] {d : Nat} {reads : List (Nat × Int)} {P : Nat → List α → Prop}

theorem lapVecLoop_cons (at' : Access (List α)) (w : Nat → α) (n : Nat) (y : List α) (i : Nat) (is : List Nat) (x : Nat → Int) (acc : List α) :
    lapVecLoop at' w n y (i :: is) x acc = (at' (bump x i 1)).bind fun yh => (at' (bump x i (-1))).bind fun yl =>
      (lapFields (w i) y yh yl (List.range n) acc).bind fun acc => lapVecLoop at' w n y is x acc := by
  simp only [lapVecLoop, neighbours_eq]
  cases at' (bump x i 1) <;> cases at' (bump x i (-1)) <;> rfl

theorem lapLoop_cons (at' : Access α) (w : Nat → α) (y : α) (i : Nat) (is : List Nat) (x : Nat → Int) (acc : α) :
    lapLoop at' w y (i :: is) x acc = (at' (bump x i 1)).bind fun yh => (at' (bump x i (-1))).bind fun yl =>
      lapLoop at' w y is x (acc + w i * (yh - (1 + 1) * y + yl)) := by
  simp only [lapLoop, neighbours_eq]
  cases at' (bump x i 1) <;> cases at' (bump x i (-1)) <;> rfl

theorem lapSparseLoop_cons (at' : Access (Sparse.Cell α)) (w : Nat → α) (y : Sparse.Cell α) (i : Nat) (is : List Nat) (x : Nat → Int) (acc : Sparse.Cell α) :
    lapSparseLoop at' w y (i :: is) x acc = (at' (bump x i 1)).bind fun yh => (at' (bump x i (-1))).bind fun yl =>
      lapSparseLoop at' w y is x (Sparse.addEq acc (Sparse.smul (w i) (Sparse.add (Sparse.sub yh (Sparse.smul (1 + 1) y)) yl))) := by
  simp only [lapSparseLoop, neighbours_eq]
  cases at' (bump x i 1) <;> cases at' (bump x i (-1)) <;> rfl

theorem lapVecLoop_reads {k : Nat} (hk : (k, 1) ∈ reads) (w : Nat → α) (n : Nat) (y : List α) (is : List Nat) (acc : List α) :
    Reads d reads fun A x => lapVecLoop (A k) w n y is x acc := by
  induction is generalizing acc with
  | nil => exact Reads.const (.ok acc)
  | cons i is ih =>
    simp only [lapVecLoop_cons]
    exact (Reads.step hk i (by simp)).bind fun yh => (Reads.step hk i (by simp)).bind fun yl => (Reads.const _).bind fun acc => ih acc

theorem lapVec_reads {k : Nat} (hk : (k, 1) ∈ reads) (n : Nat) (dx : Nat → α) : Reads d reads fun A x => lapVec d n dx (A k) x :=
  (Reads.self hk (by decide)).bind fun y => lapVecLoop_reads hk _ n y _ _

omit [Zero α] [One α] [Add α] [Sub α] [Mul α] [Div α] in
theorem entryAt_reads_self {k : Nat} {ρ : Int} (hk : (k, ρ) ∈ reads) (hρ : 0 ≤ ρ) (j : Nat) : Reads (V := List α) d reads fun A x => entryAt (A k) j x :=
  (Reads.self hk hρ).bind fun _ => Reads.const _

omit [Zero α] [One α] [Add α] [Sub α] [Mul α] [Div α] in
theorem entryAt_reads_step {k : Nat} (hk : (k, 1) ∈ reads) (j i : Nat) {s : Int} (hs : s = -1 ∨ s = 0 ∨ s = 1) :
    Reads (V := List α) d reads fun A x => entryAt (A k) j (bump x i s) :=
  (Reads.step hk i hs).bind fun _ => Reads.const _

theorem lapLoop_reads {k : Nat} (hk : (k, 1) ∈ reads) (j : Nat) (w : Nat → α) (y : α) (is : List Nat) (acc : α) :
    Reads d reads fun A x => lapLoop (entryAt (A k) j) w y is x acc := by
  induction is generalizing acc with
  | nil => exact Reads.const (.ok acc)
  | cons i is ih =>
    simp only [lapLoop_cons]
    exact (entryAt_reads_step hk j i (by simp)).bind fun yh => (entryAt_reads_step hk j i (by simp)).bind fun yl => ih _

theorem lapSparseLoop_reads {k : Nat} (hk : (k, 1) ∈ reads) (w : Nat → α) (y : Sparse.Cell α) (is : List Nat) (acc : Sparse.Cell α) :
    Reads d reads fun A x => lapSparseLoop (A k) w y is x acc := by
  induction is generalizing acc with
  | nil => exact Reads.const (.ok acc)
  | cons i is ih =>
    simp only [lapSparseLoop_cons]
    exact (Reads.step hk i (by simp)).bind fun yh => (Reads.step hk i (by simp)).bind fun yl => ih _

theorem lapSparse_reads {k : Nat} (hk : (k, 1) ∈ reads) (dx : Nat → α) : Reads d reads fun A x => lapSparse d dx (A k) x :=
  (Reads.self hk (by decide)).bind fun y => lapSparseLoop_reads hk _ y _ _

omit [Zero α] [One α] [Add α] [Sub α] [Mul α] [Div α] in
theorem elem_ok {v : List α} {j : Nat} (h : j < v.length) : ∃ a, elem v j = .ok a := ⟨v[j], by unfold elem; rw [List.getElem?_eq_getElem h]⟩

theorem lapFields_ok (w : α) {n : Nat} {y yh yl : List α} (h1 : y.length = n) (h2 : yh.length = n) (h3 : yl.length = n) (js : List Nat) (hj : ∀ j ∈ js, j < n)
    {acc : List α} (ha : acc.length = n) : ∃ v : List α, v.length = n ∧ lapFields w y yh yl js acc = .ok v := by
  induction js generalizing acc with
  | nil => exact ⟨acc, ha, rfl⟩
  | cons j js ih =>
    have hjn := hj j (by simp)
    obtain ⟨a, e0⟩ := elem_ok (v := acc) (j := j) (by omega)
    obtain ⟨b, e1⟩ := elem_ok (v := y) (j := j) (by omega)
    obtain ⟨c, e2⟩ := elem_ok (v := yh) (j := j) (by omega)
    obtain ⟨e, e3⟩ := elem_ok (v := yl) (j := j) (by omega)
    simp only [lapFields, e0, e1, e2, e3, Outcome.ok_bind]
    exact ih (fun j hj' => hj j (by simp [hj'])) (by rw [List.length_set, ha])

variable {n : Nat}

theorem lapVecLoop_gives {k : Nat} (hk : (k, 1) ∈ reads) (hP : ∀ v, P k v → v.length = n) (w : Nat → α) {y : List α} (hy : y.length = n) (is : List Nat) {acc : List α}
    (ha : acc.length = n) : Gives d P reads (fun v => v.length = n) fun A x => lapVecLoop (A k) w n y is x acc := by
  induction is generalizing acc with
  | nil => exact Gives.pure ha
  | cons i is ih =>
    simp only [lapVecLoop_cons]
    refine (Gives.step hk i (by simp)).bind fun yh hh => (Gives.step hk i (by simp)).bind fun yl hl => Gives.bind (R := fun v => v.length = n) ?_ fun acc ha => ih ha
    obtain ⟨v, hv, e⟩ := lapFields_ok (w i) hy (hP _ hh) (hP _ hl) (List.range n) (fun j hj => List.mem_range.1 hj) ha
    rw [e]; exact Gives.pure hv

theorem lapVec_gives {k : Nat} (hk : (k, 1) ∈ reads) (hP : ∀ v, P k v → v.length = n) (dx : Nat → α) :
    Gives d P reads (fun v => v.length = n) fun A x => lapVec d n dx (A k) x :=
  (Gives.self hk (by decide)).bind fun _ hy => lapVecLoop_gives hk hP _ (hP _ hy) _ List.length_replicate

omit [Zero α] [One α] [Add α] [Sub α] [Mul α] [Div α] in
theorem elem_gives {v : List α} {j : Nat} (h : j < v.length) : Gives d P reads (fun _ => True) fun _ _ => elem v j := by
  obtain ⟨a, e⟩ := elem_ok h
  rw [e]; exact Gives.pure trivial

omit [Zero α] [One α] [Add α] [Sub α] [Mul α] [Div α] in
theorem entryAt_gives_self {k : Nat} {ρ : Int} (hk : (k, ρ) ∈ reads) (hρ : 0 ≤ ρ) {j : Nat} (hP : ∀ v, P k v → j < v.length) :
    Gives d P reads (fun _ => True) fun A x => entryAt (A k) j x :=
  (Gives.self hk hρ).bind fun _ hv => elem_gives (hP _ hv)

omit [Zero α] [One α] [Add α] [Sub α] [Mul α] [Div α] in
theorem entryAt_gives_step {k : Nat} (hk : (k, 1) ∈ reads) {j : Nat} (hP : ∀ v, P k v → j < v.length) (i : Nat) {s : Int} (hs : s = -1 ∨ s = 0 ∨ s = 1) :
    Gives d P reads (fun _ => True) fun A x => entryAt (A k) j (bump x i s) :=
  (Gives.step hk i hs).bind fun _ hv => elem_gives (hP _ hv)

theorem lapLoop_gives {k : Nat} (hk : (k, 1) ∈ reads) {j : Nat} (hP : ∀ v, P k v → j < v.length) (w : Nat → α) (y : α) (is : List Nat) (acc : α) :
    Gives d P reads (fun _ => True) fun A x => lapLoop (entryAt (A k) j) w y is x acc := by
  induction is generalizing acc with
  | nil => exact Gives.pure trivial
  | cons i is ih =>
    simp only [lapLoop_cons]
    exact (entryAt_gives_step hk hP i (by simp)).bind fun _ _ => (entryAt_gives_step hk hP i (by simp)).bind fun _ _ => ih _

theorem lapSparseLoop_gives {P : Nat → Sparse.Cell α → Prop} {k : Nat} (hk : (k, 1) ∈ reads) (w : Nat → α) (y : Sparse.Cell α) (is : List Nat) (acc : Sparse.Cell α) :
    Gives d P reads (fun _ => True) fun A x => lapSparseLoop (A k) w y is x acc := by
  induction is generalizing acc with
  | nil => exact Gives.pure trivial
  | cons i is ih =>
    simp only [lapSparseLoop_cons]
    exact (Gives.step hk i (by simp)).bind fun _ _ => (Gives.step hk i (by simp)).bind fun _ _ => ih _

theorem lapSparse_gives {P : Nat → Sparse.Cell α → Prop} {k : Nat} (hk : (k, 1) ∈ reads) (dx : Nat → α) :
    Gives d P reads (fun _ => True) fun A x => lapSparse d dx (A k) x :=
  (Gives.self hk (by decide)).bind fun _ _ => lapSparseLoop_gives hk _ _ _ _

end Laplacians

/-! ## Cells that are vectors -/

section Dense
variable {α : Type} [Zero α] [One α] [Add α] [Sub α] [Mul α] [Div α] {d n : Nat}

/-- All cells have `n` entries. -/
abbrev Entries (α : Type) (n : Nat) : Nat → List α → Prop := fun _ v => v.length = n

theorem isoKernel_reads (dx : Nat → α) (value : List α → List α → Nat → α) : ReadsOnly d [(0, 1)] (isoKernel d n dx value) :=
  Reads.bind (Reads.self (by simp) (ρ := 1) (by decide)) fun _ => (lapVec_reads (by simp) n dx).bind fun _ => Reads.const _

theorem isoKernel_keeps (dx : Nat → α) (value : List α → List α → Nat → α) : Keeps d (Entries α n) [(0, 1)] 1 (isoKernel d n dx value) :=
  Gives.bind (Gives.self (by simp) (ρ := 1) (by decide)) fun _ _ => (lapVec_gives (by simp) (fun _ h => h) dx).bind fun _ _ => Gives.pure (by simp [Entries])

section Marks
omit [Zero α] [One α] [Add α] [Sub α] [Mul α] [Div α]

theorem nearAt_reads (pos : α → Bool) {reads : List (Nat × Int)} (hr : (0, 1) ∈ reads) (h : Nat) : Reads (V := List α) d reads fun A x => nearAt pos d (A 0) x h := by
  refine Reads.fold _ (fun b j _ => Reads.fold _ (fun b k hk => ?_) b) false
  by_cases hb : b = true
  · simp only [hb, if_true]; exact Reads.const _
  · simp only [hb]
    refine Reads.bind (Reads.step hr j ?_) fun _ => (Reads.const _).bind fun _ => Reads.const _
    simpa using hk

theorem markedAt_reads (pos : α → Bool) {reads : List (Nat × Int)} (hr : (0, 1) ∈ reads) : Reads (V := List α) d reads fun A x => markedAt pos d n (A 0) x :=
  Reads.fold _ (fun _ h _ => (nearAt_reads pos hr h).bind fun _ => Reads.const _) _

theorem nearAt_gives (pos : α → Bool) {reads : List (Nat × Int)} (hr : (0, 1) ∈ reads) {h : Nat} (hh : h < n) :
    Gives d (Entries α n) reads (fun _ => True) fun A x => nearAt pos d (A 0) x h := by
  refine Gives.fold _ (fun b _ j _ => Gives.fold _ (fun b _ k hk => ?_) trivial) trivial
  by_cases hb : b = true
  · simp only [hb, if_true]; exact Gives.pure trivial
  · simp only [hb]
    refine Gives.bind (Gives.step hr j ?_) fun _ hv => (elem_gives (by rw [hv]; exact hh)).bind fun _ _ => Gives.pure trivial
    simpa using hk

theorem markedAt_gives (pos : α → Bool) {reads : List (Nat × Int)} (hr : (0, 1) ∈ reads) : Gives d (Entries α n) reads (fun _ => True) fun A x => markedAt pos d n (A 0) x :=
  Gives.fold _ (fun _ _ _ hh => (nearAt_gives pos hr (List.mem_range.1 hh)).bind fun _ _ => Gives.pure trivial) trivial

end Marks

theorem anisoKernel_reads (pos : α → Bool) (dx : Nat → α) (value : List Int → List α → List α → Nat → α) : ReadsOnly d [(0, 1)] (anisoKernel pos d n dx value) := by
  refine Reads.bind (markedAt_reads pos (by simp)) fun s => (Reads.self (by simp) (ρ := 1) (by decide)).bind fun y => ?_
  by_cases hs : s.length < 2
  · simp only [hs, if_true]; exact Reads.const _
  · simp only [hs, if_false]
    exact (lapVec_reads (by simp) n dx).bind fun _ => Reads.const _

theorem anisoKernel_keeps (pos : α → Bool) (dx : Nat → α) (value : List Int → List α → List α → Nat → α) : Keeps d (Entries α n) [(0, 1)] 1 (anisoKernel pos d n dx value) := by
  refine Gives.bind (markedAt_gives pos (by simp)) fun s _ => (Gives.self (by simp) (ρ := 1) (by decide)).bind fun y hy => ?_
  by_cases hs : s.length < 2
  · simp only [hs, if_true]; exact Gives.pure hy
  · simp only [hs, if_false]
    exact (lapVec_gives (by simp) (fun _ h => h) dx).bind fun _ hl => Gives.pure (by simp [Entries])

end Dense

/-! ## Sparse cells -/

section SparseCells
variable {α : Type} [Zero α] [One α] [Add α] [Sub α] [Mul α] [Div α] {d : Nat} {I : Finset Int}

/-- Every field is listed once, and only fields of `I` are. -/
def Lists (I : Finset Int) (c : Sparse.Cell α) : Prop := Sparse.Ok c ∧ ∀ k ∈ Sparse.keys c, k ∈ I

omit [Zero α] [One α] [Add α] [Sub α] [Mul α] [Div α] in
theorem nearbyAt_reads {reads : List (Nat × Int)} (hr : (0, 1) ∈ reads) : Reads (V := Sparse.Cell α) d reads fun A x => nearbyAt d (A 0) x := by
  refine Reads.fold _ (fun b j _ => Reads.fold _ (fun b k hk => ?_) b) []
  refine Reads.bind (Reads.step hr j ?_) fun _ => Reads.const _
  simpa using hk

omit [Zero α] [One α] [Add α] [Sub α] [Mul α] [Div α] in
theorem nearbyAt_gives {reads : List (Nat × Int)} (hr : (0, 1) ∈ reads) :
    Gives d (fun _ => Lists I) reads (fun s => Sparse.Ok s ∧ ∀ k ∈ Sparse.keys s, k ∈ I) fun (A : Nat → Access (Sparse.Cell α)) x => nearbyAt d (A 0) x := by
  refine Gives.fold _ (fun b hb j _ => Gives.fold _ (fun b hb k hk => ?_) hb) ⟨by simp [Sparse.Ok, Sparse.keys], by simp [Sparse.keys]⟩
  refine Gives.bind (Gives.step hr j ?_) fun c hc => Gives.pure ?_
  · simpa using hk
  · obtain ⟨h1, h2⟩ := SparsePF.mark_spec c b hb.1
    exact ⟨h1, fun k hk => ((h2 k).1 hk).elim (hb.2 k) (hc.2 k)⟩

/-- A node update that lists every field once and adds only fields near the node. -/
def LocalFields (f : Sparse.Cell Int → Sparse.Cell α → Sparse.Cell α → Sparse.Cell α → Sparse.Cell α) : Prop :=
  ∀ s lap y z, Sparse.Ok s → Sparse.Ok y → Sparse.Ok z → Sparse.Ok (f s lap y z) ∧
    ∀ k ∈ Sparse.keys (f s lap y z), k ∈ Sparse.keys s ∨ k ∈ Sparse.keys y ∨ k ∈ Sparse.keys z

theorem sparseKernel_reads (dx : Nat → α) (f : Sparse.Cell Int → Sparse.Cell α → Sparse.Cell α → Sparse.Cell α → Sparse.Cell α) :
    ReadsOnly d [(0, 1), (1, 0)] (sparseKernel d dx f) := by
  refine Reads.bind (nearbyAt_reads (by simp)) fun s => Reads.bind (Reads.self (ρ := 1) (by simp) (by decide)) fun y => Reads.bind (Reads.self (ρ := 0) (by simp) (by decide)) fun z => ?_
  by_cases hs : s.length < 2
  · simp only [hs, if_true]; exact Reads.const _
  · simp only [hs, if_false]; exact (lapSparse_reads (by simp) dx).bind fun _ => Reads.const _

theorem sparseKernel_keeps (dx : Nat → α) {f : Sparse.Cell Int → Sparse.Cell α → Sparse.Cell α → Sparse.Cell α → Sparse.Cell α} (hf : LocalFields f) :
    Keeps d (fun _ => Lists I) [(0, 1), (1, 0)] 1 (sparseKernel d dx f) := by
  refine Gives.bind (nearbyAt_gives (by simp)) fun s hs => Gives.bind (Gives.self (ρ := 1) (by simp) (by decide)) fun y hy =>
    Gives.bind (Gives.self (ρ := 0) (by simp) (by decide)) fun z hz => ?_
  have fin : ∀ lap, Lists I (f s lap y z) := fun lap =>
    ⟨(hf s lap y z hs.1 hy.1 hz.1).1, fun k hk => ((hf s lap y z hs.1 hy.1 hz.1).2 k hk).elim (hs.2 k) fun h => h.elim (hy.2 k) (hz.2 k)⟩
  by_cases hl : s.length < 2
  · simp only [hl, if_true]; exact Gives.pure (fin _)
  · simp only [hl, if_false]; exact (lapSparse_gives (by simp) dx).bind fun lap _ => Gives.pure (fin lap)

end SparseCells

section SparseNodes
variable {α : Type} [Field α] [LinearOrder α]

theorem isoNode_local (dt : α) : LocalFields (SparsePF.isoNode dt) := by
  intro s lap y z _ hy hz
  refine ⟨SparsePF.isoNode_ok dt s lap hy hz, fun k hk => ?_⟩
  by_cases h : s.length < 2
  · rw [SparsePF.isoNode_bulk dt lap y z h] at hk; exact .inr (.inl hk)
  · exact (((SparsePF.isoNode_spec dt hz (not_lt.1 h)).2.2 k).1 hk).elim (fun h => .inr (.inr h)) fun h => .inl h.1

theorem assign_local (value : Int → α) (l : List Int) {z : Sparse.Cell α} (hz : Sparse.Ok z) :
    Sparse.Ok (SparsePF.assign value l z).1 ∧ ∀ k ∈ Sparse.keys (SparsePF.assign value l z).1, k ∈ l ∨ k ∈ Sparse.keys z := by
  have key : ∀ (l : List Int) (a : Sparse.Cell α × α), Sparse.Ok a.1 →
      Sparse.Ok (l.foldl (fun (a : Sparse.Cell α × α) i =>
        ((if SparsePF.clamp (value i) > SparsePF.tiny then Sparse.update a.1 i fun _ => SparsePF.clamp (value i) else a.1),
          a.2 + Sparse.get (if SparsePF.clamp (value i) > SparsePF.tiny then Sparse.update a.1 i fun _ => SparsePF.clamp (value i) else a.1) i)) a).1 ∧
      ∀ k ∈ Sparse.keys (l.foldl (fun (a : Sparse.Cell α × α) i =>
        ((if SparsePF.clamp (value i) > SparsePF.tiny then Sparse.update a.1 i fun _ => SparsePF.clamp (value i) else a.1),
          a.2 + Sparse.get (if SparsePF.clamp (value i) > SparsePF.tiny then Sparse.update a.1 i fun _ => SparsePF.clamp (value i) else a.1) i)) a).1, k ∈ l ∨ k ∈ Sparse.keys a.1 := by
    intro l
    induction l with
    | nil => exact fun a ha => ⟨ha, fun k hk => .inr hk⟩
    | cons i l ih =>
      intro a ha
      rw [List.foldl_cons]
      by_cases hv : SparsePF.clamp (value i) > SparsePF.tiny
      · simp only [if_pos hv]
        obtain ⟨h1, h2⟩ := ih (Sparse.update a.1 i fun _ => SparsePF.clamp (value i), a.2 + Sparse.get (Sparse.update a.1 i fun _ => SparsePF.clamp (value i)) i)
          (by have := ha.update i fun _ => SparsePF.clamp (value i); exact this)
        refine ⟨h1, fun k hk => (h2 k hk).elim (fun h => .inl (by simp [h])) fun h => ?_⟩
        rw [Sparse.keys_update] at h
        split_ifs at h
        · exact .inr h
        · rw [List.mem_append, List.mem_singleton] at h
          exact h.elim .inr fun h => .inl (by simp [h])
      · simp only [if_neg hv]
        obtain ⟨h1, h2⟩ := ih (a.1, a.2 + Sparse.get a.1 i) ha
        exact ⟨h1, fun k hk => (h2 k hk).elim (fun h => .inl (by simp [h])) .inr⟩
  exact key l (z, 0) hz

theorem anisoNode_local (dt : α) (energy mobility : Int → Int → α) (eps w : α → α) : LocalFields (SparsePF.anisoNode dt energy mobility eps w) := by
  intro s lap y z hs hy hz
  unfold SparsePF.anisoNode SparsePF.pairNode
  split_ifs with h
  · exact ⟨hy, fun k hk => .inr (.inl hk)⟩
  · obtain ⟨h1, h2⟩ := assign_local (SparsePF.freeValue dt (s.length : α) y (SparsePF.rates mobility (SparsePF.forces3 (fun h j => 1 / 2 * eps (energy h j) * eps (energy h j))
      (fun h j => w (energy h j)) lap y (s.map Prod.fst) []) (s.map Prod.fst))) (s.map Prod.fst) hz
    unfold SparsePF.project
    dsimp only
    obtain ⟨_, m2, m3⟩ := Sparse.mulEq_correct (if |(SparsePF.assign (SparsePF.freeValue dt (s.length : α) y (SparsePF.rates mobility (SparsePF.forces3 (fun h j => 1 / 2 * eps (energy h j) * eps (energy h j))
      (fun h j => w (energy h j)) lap y (s.map Prod.fst) []) (s.map Prod.fst))) (s.map Prod.fst) z).2| > 0 then 1 / (SparsePF.assign (SparsePF.freeValue dt (s.length : α) y (SparsePF.rates mobility (SparsePF.forces3 (fun h j => 1 / 2 * eps (energy h j) * eps (energy h j))
      (fun h j => w (energy h j)) lap y (s.map Prod.fst) []) (s.map Prod.fst))) (s.map Prod.fst) z).2 else 0) h1
    exact ⟨m2, fun k hk => (h2 k (by simpa only [m3] using hk)).elim .inl fun h => .inr (.inr h)⟩

end SparseNodes

/-! ## Ostwald ripening and solidification -/

section Ostwald
variable {α : Type} [Zero α] [One α] [Add α] [Sub α] [Mul α] [Div α] {d n : Nat}

/-- All cells have `n` entries, those of grid `s` one. -/
abbrev Sizes (α : Type) (n s : Nat) : Nat → List α → Prop := fun k v => v.length = if k = s then 1 else n

theorem potentialKernel_reads (pow2 : α → α) (dx : Nat → α) (pot : List α → α → α) : ReadsOnly d [(0, 1)] (potentialKernel d pow2 dx pot) :=
  Reads.bind (Reads.self (ρ := 1) (by simp) (by decide)) fun _ => (entryAt_reads_self (ρ := 1) (by simp) (by decide) 0).bind fun _ =>
    (lapLoop_reads (by simp) 0 _ _ _ _).bind fun _ => Reads.const _

theorem potentialKernel_keeps (hn : 0 < n) (pow2 : α → α) (dx : Nat → α) (pot : List α → α → α) : Keeps d (Sizes α n 2) [(0, 1)] 2 (potentialKernel d pow2 dx pot) := by
  have h0 : ∀ v, Sizes α n 2 0 v → 0 < v.length := fun v h => by rw [show v.length = n from h]; exact hn
  exact Gives.bind (Gives.self (ρ := 1) (by simp) (by decide)) fun _ _ => (entryAt_gives_self (ρ := 1) (by simp) (by decide) h0).bind fun _ _ =>
    (lapLoop_gives (by simp) h0 _ _ _ _).bind fun _ _ => Gives.pure rfl

theorem ostwaldKernel_reads (dx : Nat → α) (value : List α → List α → α → Nat → α) : ReadsOnly d [(0, 1), (2, 1)] (ostwaldKernel d n dx value) :=
  Reads.bind (entryAt_reads_self (ρ := 1) (by simp) (by decide) 0) fun _ => (lapLoop_reads (by simp) 0 _ _ _ _).bind fun _ => (Reads.self (ρ := 1) (by simp) (by decide)).bind fun _ =>
    (lapVec_reads (by simp) n dx).bind fun _ => Reads.const _

theorem ostwaldKernel_keeps (dx : Nat → α) (value : List α → List α → α → Nat → α) : Keeps d (Sizes α n 2) [(0, 1), (2, 1)] 1 (ostwaldKernel d n dx value) := by
  have h2 : ∀ v, Sizes α n 2 2 v → 0 < v.length := fun v h => by rw [show v.length = 1 from h]; exact Nat.one_pos
  exact Gives.bind (entryAt_gives_self (ρ := 1) (by simp) (by decide) h2) fun _ _ => (lapLoop_gives (by simp) h2 _ _ _ _).bind fun _ _ =>
    (Gives.self (ρ := 1) (by simp) (by decide)).bind fun _ _ => (lapVec_gives (by simp) (fun _ h => h) dx).bind fun _ _ => Gives.pure (by simp [Sizes])

end Ostwald

section Solid
variable {α : Type} {d : Nat}

theorem entry_size {k j : Nat} (h : j < if k = 3 then 1 else 2) : ∀ v, Sizes α 2 3 k v → j < v.length := fun v hv => by rw [show v.length = _ from hv]; exact h

theorem fluxKernel_reads (flux : α → α → α → α × α) : ReadsOnly d [(0, 1)] (fluxKernel flux) :=
  Reads.bind (entryAt_reads_self (ρ := 1) (by simp) (by decide) 0) fun _ => (entryAt_reads_step (by simp) 0 0 (by simp)).bind fun _ =>
    (entryAt_reads_step (by simp) 0 1 (by simp)).bind fun _ => Reads.const _

theorem fluxKernel_keeps (flux : α → α → α → α × α) : Keeps d (Sizes α 2 3) [(0, 1)] 2 (fluxKernel flux) :=
  Gives.bind (entryAt_gives_self (ρ := 1) (by simp) (by decide) (entry_size (by decide))) fun _ _ => (entryAt_gives_step (by simp) (entry_size (by decide)) 0 (by simp)).bind fun _ _ =>
    (entryAt_gives_step (by simp) (entry_size (by decide)) 1 (by simp)).bind fun _ _ => Gives.pure rfl

theorem solidKernel_reads (value : Around α → α × α) : ReadsOnly d [(0, 1), (2, 1), (3, 0)] (solidKernel value) :=
  Reads.bind (entryAt_reads_self (ρ := 1) (by simp) (by decide) 0) fun _ => (entryAt_reads_self (ρ := 1) (by simp) (by decide) 1).bind fun _ =>
    (entryAt_reads_self (ρ := 1) (by simp) (by decide) 0).bind fun _ => (entryAt_reads_self (ρ := 1) (by simp) (by decide) 1).bind fun _ =>
    (entryAt_reads_step (by simp) 0 0 (by simp)).bind fun _ => (entryAt_reads_step (by simp) 1 1 (by simp)).bind fun _ =>
    (entryAt_reads_step (by simp) 1 0 (by simp)).bind fun _ => (entryAt_reads_step (by simp) 1 0 (by simp)).bind fun _ =>
    (entryAt_reads_step (by simp) 1 1 (by simp)).bind fun _ => (entryAt_reads_step (by simp) 1 1 (by simp)).bind fun _ =>
    (entryAt_reads_self (ρ := 0) (by simp) (by decide) 0).bind fun _ => Reads.const _

theorem solidKernel_keeps (value : Around α → α × α) : Keeps d (Sizes α 2 3) [(0, 1), (2, 1), (3, 0)] 1 (solidKernel value) :=
  Gives.bind (entryAt_gives_self (ρ := 1) (by simp) (by decide) (entry_size (by decide))) fun _ _ =>
    (entryAt_gives_self (ρ := 1) (by simp) (by decide) (entry_size (by decide))).bind fun _ _ =>
    (entryAt_gives_self (ρ := 1) (by simp) (by decide) (entry_size (by decide))).bind fun _ _ => (entryAt_gives_self (ρ := 1) (by simp) (by decide) (entry_size (by decide))).bind fun _ _ =>
    (entryAt_gives_step (by simp) (entry_size (by decide)) 0 (by simp)).bind fun _ _ => (entryAt_gives_step (by simp) (entry_size (by decide)) 1 (by simp)).bind fun _ _ =>
    (entryAt_gives_step (by simp) (entry_size (by decide)) 0 (by simp)).bind fun _ _ => (entryAt_gives_step (by simp) (entry_size (by decide)) 0 (by simp)).bind fun _ _ =>
    (entryAt_gives_step (by simp) (entry_size (by decide)) 1 (by simp)).bind fun _ _ => (entryAt_gives_step (by simp) (entry_size (by decide)) 1 (by simp)).bind fun _ _ =>
    (entryAt_gives_self (ρ := 0) (by simp) (by decide) (entry_size (by decide))).bind fun _ _ => Gives.pure rfl

theorem keepKernel_reads : ReadsOnly (V := List α) d [(0, 0)] keepKernel := Reads.bind (entryAt_reads_self (ρ := 0) (by simp) (by decide) 0) fun _ => Reads.const _

theorem keepKernel_keeps : Keeps d (Sizes α 2 3) [(0, 0)] 3 keepKernel :=
  Gives.bind (entryAt_gives_self (ρ := 0) (by simp) (by decide) (entry_size (by decide))) fun _ _ => Gives.pure rfl

end Solid

/-! ## C87 -/

theorem evolve_disciplined {V : Type} {d : Nat} {gh : Int} (hgh : 1 ≤ gh) {P : Nat → V → Prop} (hP : P 0 = P 1) {kern : Kernel V} (only : ReadsOnly d [(0, 1)] kern)
    (keeps : Keeps d P [(0, 1)] 1 kern) : Disciplined d gh P oldKnown [.loop 1 kern, .swap 0 1, .ghostswap 0] oldKnown := by
  refine .loop [(0, 1)] only keeps (by simp) ?_ (.swap hP (.ghostswap ?_ (.nil ⟨?_, ?_⟩)))
  · intro q hq; simp at hq; subst hq; exact Or.inr ⟨hgh, rfl⟩
  · exact Or.inr rfl
  · rintro k rfl; exact Or.inr rfl
  · rintro k rfl; exact Or.inr rfl

/-- Both fields are known, and the ghosts of `oldGrid`. -/
def bothKnown : Known := ⟨fun k => k = 0 ∨ k = 1, fun k => k = 0⟩

theorem sparse_disciplined {V : Type} {d : Nat} {gh : Int} (hgh : 1 ≤ gh) {P : Nat → V → Prop} (hP : P 0 = P 1) {kern : Kernel V} (only : ReadsOnly d [(0, 1), (1, 0)] kern)
    (keeps : Keeps d P [(0, 1), (1, 0)] 1 kern) : Disciplined d gh P bothKnown [.loop 1 kern, .swap 0 1, .ghostswap 0] bothKnown := by
  refine .loop [(0, 1), (1, 0)] only keeps (by simp) ?_ (.swap hP (.ghostswap ?_ (.nil ⟨?_, ?_⟩)))
  · intro q hq; simp at hq; rcases hq with rfl | rfl
    · exact Or.inr ⟨hgh, rfl⟩
    · exact Or.inl ⟨rfl, Or.inr rfl⟩
  · exact Or.inr rfl
  · rintro k (rfl | rfl)
    · exact Or.inr rfl
    · exact Or.inl (Or.inl rfl)
  · rintro k rfl; exact Or.inr rfl

section Programs
variable {α : Type} [Zero α] [One α] [Add α] [Sub α] [Mul α] [Div α] {n : Nat} {w : World} {np : Nat}

theorem ostwald_disciplined {d : Nat} {gh : Int} (hgh : 1 ≤ gh) (hn : 0 < n) (pow2 : α → α) (dx : Nat → α) (pot : List α → α → α) (value : List α → List α → α → Nat → α) :
    Disciplined d gh (Sizes α n 2) oldKnown [.loop 2 (potentialKernel d pow2 dx pot), .ghostswap 2, .loop 1 (ostwaldKernel d n dx value), .swap 0 1, .ghostswap 0] oldKnown := by
  refine .loop [(0, 1)] (potentialKernel_reads pow2 dx pot) (potentialKernel_keeps hn pow2 dx pot) (by simp) ?_
    (.ghostswap (Or.inr rfl) (.loop [(0, 1), (2, 1)] (ostwaldKernel_reads dx value) (ostwaldKernel_keeps dx value) (by simp) ?_ (.swap rfl (.ghostswap ?_ (.nil ⟨?_, ?_⟩)))))
  · intro q hq; simp at hq; subst hq; exact Or.inr ⟨hgh, rfl⟩
  · intro q hq; simp at hq; rcases hq with rfl | rfl
    · exact Or.inr ⟨hgh, Or.inl ⟨rfl, by decide⟩⟩
    · exact Or.inr ⟨hgh, Or.inr rfl⟩
  · exact Or.inr rfl
  · rintro k rfl; exact Or.inr rfl
  · rintro k rfl; exact Or.inr rfl

/-- `oldGrid`, its ghosts and `refGrid` are known. -/
def refKnown : Known := ⟨fun k => k = 0 ∨ k = 3, fun k => k = 0⟩

omit [Zero α] [One α] [Add α] [Sub α] [Mul α] [Div α] in
theorem solid_disciplined {d : Nat} {gh : Int} (hgh : 1 ≤ gh) (flux : α → α → α → α × α) (value : Around α → α × α) :
    Disciplined d gh (Sizes α 2 3) refKnown [.loop 2 (fluxKernel flux), .ghostswap 2, .loop 1 (solidKernel value), .loop 3 keepKernel, .swap 0 1, .ghostswap 0] refKnown := by
  refine .loop [(0, 1)] (fluxKernel_reads flux) (fluxKernel_keeps flux) (by simp) ?_
    (.ghostswap (Or.inr rfl) (.loop [(0, 1), (2, 1), (3, 0)] (solidKernel_reads value) (solidKernel_keeps value) (by simp) ?_
      (.loop [(0, 0)] keepKernel_reads keepKernel_keeps (by simp) ?_ (.swap rfl (.ghostswap ?_ (.nil ⟨?_, ?_⟩))))))
  · intro q hq; simp at hq; subst hq; exact Or.inr ⟨hgh, rfl⟩
  · intro q hq; simp at hq; rcases hq with rfl | rfl | rfl
    · exact Or.inr ⟨hgh, Or.inl ⟨rfl, by decide⟩⟩
    · exact Or.inr ⟨hgh, Or.inr rfl⟩
    · exact Or.inl ⟨rfl, Or.inl (Or.inr rfl)⟩
  · intro q hq; simp at hq; subst hq; exact Or.inl ⟨rfl, Or.inl (Or.inl (Or.inl rfl))⟩
  · exact Or.inl (Or.inr rfl)
  · rintro k (rfl | rfl)
    · exact Or.inl (Or.inr rfl)
    · exact Or.inr rfl
  · rintro k rfl; exact Or.inr rfl

/-! ### The buffers -/

theorem mapCell_roundTrips {V W : Type} {c : Cell V} (hc : RoundTrips c) (store : W → V) (load : V → W) : RoundTrips (mapCell c store load) := by
  rintro v ⟨hv, e⟩
  obtain ⟨h1, h2⟩ := hc (store v) hv
  refine ⟨h1, fun rest => ?_⟩
  show (c.dec (c.enc (store v) ++ rest)).bind _ = _
  rw [h2, Outcome.ok_bind, e]; rfl

/-- The buffers of sparse cells: items of an `int`, `pad` alignment bytes and a value, `include/MMSP.sparse.h` 72-89. -/
def sparseWire {T : Type} (c : Codec T) (pad : Nat) (pad0 : { l : List Byte // l.length = pad }) : Cell (Sparse.Cell T) :=
  mapCell (arrayCell (itemCodec c pad pad0)) (ConvertFile.items pad0) ConvertFile.entries

/-- The buffers of vector cells serve all grids of the dense examples. -/
theorem dense_buffers {T : Type} (c : Codec T) {n : Nat} (hn : n < 2 ^ 31) :
    (∀ _ : Nat, RoundTrips (arrayCell c)) ∧ ∀ (k : Nat) (v : List T), Entries T n k v → (arrayCell c).Valid v :=
  ⟨fun _ => vectorCell_roundTrips c, fun _ v h => by show v.length < 2 ^ 31; rw [show v.length = n from h]; exact hn⟩

/-- The buffers of vectors and scalars serve the grids of Ostwald ripening and solidification. -/
theorem mixed_buffers {T : Type} [Zero T] (c : Codec T) {n s : Nat} (hn : n < 2 ^ 31) :
    (∀ k, RoundTrips (mixedCell c s k)) ∧ ∀ k v, Sizes T n s k v → (mixedCell c s k).Valid v := by
  refine ⟨fun k => ?_, fun k v h => ?_⟩
  · unfold mixedCell
    split_ifs
    · exact mapCell_roundTrips (primCell_roundTrips c) _ _
    · exact vectorCell_roundTrips c
  · unfold mixedCell
    split_ifs with e
    · have hl : v.length = 1 := by rw [show v.length = _ from h, if_pos e]
      obtain ⟨a, rfl⟩ := List.length_eq_one_iff.1 hl
      exact ⟨trivial, rfl⟩
    · show v.length < 2 ^ 31
      rw [show v.length = _ from h, if_neg e]; exact hn

/-- The buffers of sparse cells serve grids whose fields are numbered by `int`s. -/
theorem sparse_buffers {T : Type} (c : Codec T) (pad : Nat) (pad0 : { l : List Byte // l.length = pad }) {I : Finset Int} (hI : I.card < 2 ^ 31) (hint : ∀ k ∈ I, -2 ^ 31 ≤ k ∧ k < 2 ^ 31) :
    RoundTrips (sparseWire c pad pad0) ∧ ∀ v, Lists I v → (sparseWire c pad pad0).Valid v := by
  refine ⟨mapCell_roundTrips (sparseCell_roundTrips c pad pad0) _ _, fun v h => ⟨?_, ?_⟩⟩
  · show (ConvertFile.items pad0 v).length < 2 ^ 31
    have h1 : v.length = (Sparse.keys v).toFinset.card := by rw [List.toFinset_card_of_nodup h.1]; simp [Sparse.keys]
    have h2 := Finset.card_le_card (fun k hk => h.2 k (List.mem_toFinset.1 hk) : (Sparse.keys v).toFinset ⊆ I)
    rw [ConvertFile.items, List.length_map]; omega
  · exact ConvertFile.entries_items pad0 fun t ht => hint _ (h.2 _ (List.mem_map_of_mem ht))

/-! ### The theorems -/

theorem evolve_parallel {V : Type} {c : Nat → Cell V} {P : Nat → V → Prop} (hc : ∀ k, RoundTrips (c k)) (hPc : ∀ k v, P k v → (c k).Valid v) (h : w.Ok np) (hgh : 1 ≤ w.ghosts)
    (hP : P 0 = P 1) {kern : Kernel V} (only : ReadsOnly w.d [(0, 1)] kern) (keeps : Keeps w.d P [(0, 1)] 1 kern) (steps : Nat) {σ : Grids V} {D : Int → Grids V}
    (hF : SameField w np σ D 0) (hS : AllCells w np P σ D) :
    ∃ σ' D', serialRun w.serial (evolveUpdate kern steps) σ = .ok σ' ∧ Finished np (mpiRun c w (evolveUpdate kern steps) fun r => .ok (D r)) D' ∧ SameField w np σ' D' 0 := by
  have hd : Disciplined w.d w.ghosts P ⟨fun k => k = 0, fun _ => False⟩ (evolveUpdate kern steps) oldKnown :=
    .ghostswap rfl (((evolve_disciplined hgh hP only keeps).steps steps).mono ⟨fun _ => id, fun _ hk => Or.inr hk⟩)
  obtain ⟨σ', D', e1, e2, hA, _⟩ := parallel_eq_serial hc hPc h hd (σ := σ) (D := D) (S := fun r => .ok (D r)) (fun _ _ => rfl) ⟨fun k hk => hk ▸ hF, fun _ hk => hk.elim⟩ hS
  exact ⟨σ', D', e1, e2, hA.same 0 rfl⟩

variable {c : Nat → Cell (List α)}

/-- **C87, isotropic phase field** (grain growth and Zener pinning). On any number of ranks and after any number of steps `oldGrid` holds, node by node and bit for bit, what the
serial program computes; neither run fails. `value` is the right-hand side, computed in any arithmetic. -/
theorem isoDense_parallel (hc : ∀ k, RoundTrips (c k)) (hPc : ∀ k v, Entries α n k v → (c k).Valid v) (h : w.Ok np) (hgh : 1 ≤ w.ghosts) (dx : Nat → α)
    (value : List α → List α → Nat → α) (steps : Nat) {σ : Grids (List α)} {D : Int → Grids (List α)} (hF : SameField w np σ D 0) (hS : AllCells w np (Entries α n) σ D) :
    ∃ σ' D', serialRun w.serial (evolveUpdate (isoKernel w.d n dx value) steps) σ = .ok σ' ∧
      Finished np (mpiRun c w (evolveUpdate (isoKernel w.d n dx value) steps) fun r => .ok (D r)) D' ∧ SameField w np σ' D' 0 :=
  evolve_parallel hc hPc h hgh rfl (isoKernel_reads dx value) (isoKernel_keeps dx value) steps hF hS

/-- **C87, anisotropic phase field** (grain growth and Zener pinning). -/
theorem anisoDense_parallel (hc : ∀ k, RoundTrips (c k)) (hPc : ∀ k v, Entries α n k v → (c k).Valid v) (h : w.Ok np) (hgh : 1 ≤ w.ghosts) (pos : α → Bool) (dx : Nat → α)
    (value : List Int → List α → List α → Nat → α) (steps : Nat) {σ : Grids (List α)} {D : Int → Grids (List α)} (hF : SameField w np σ D 0)
    (hS : AllCells w np (Entries α n) σ D) :
    ∃ σ' D', serialRun w.serial (evolveUpdate (anisoKernel pos w.d n dx value) steps) σ = .ok σ' ∧
      Finished np (mpiRun c w (evolveUpdate (anisoKernel pos w.d n dx value) steps) fun r => .ok (D r)) D' ∧ SameField w np σ' D' 0 :=
  evolve_parallel hc hPc h hgh rfl (anisoKernel_reads pos dx value) (anisoKernel_keeps pos dx value) steps hF hS

/-- **C87, sparse phase field** (isotropic and anisotropic grain growth, anisotropic Zener pinning; `isoNode_local`, `anisoNode_local`): `newGrid` starts with empty cells in both
builds; its stale entries are the same too, so the fields agree. -/
theorem sparse_parallel {c : Nat → Cell (Sparse.Cell α)} {I : Finset Int} (hc : ∀ k, RoundTrips (c k)) (hPc : ∀ k v, Lists I v → (c k).Valid v) (h : w.Ok np)
    (hgh : 1 ≤ w.ghosts) (dx : Nat → α) {f : Sparse.Cell Int → Sparse.Cell α → Sparse.Cell α → Sparse.Cell α → Sparse.Cell α} (hf : LocalFields f) (steps : Nat)
    {σ : Grids (Sparse.Cell α)} {D : Int → Grids (Sparse.Cell α)} (hF : SameField w np σ D 0) (hS : AllCells w np (fun _ => Lists I) σ D) (hσ : ∀ o, σ 1 o = [])
    (hD : ∀ r o, D r 1 o = []) :
    ∃ σ' D', serialRun w.serial (evolveUpdate (sparseKernel w.d dx f) steps) σ = .ok σ' ∧
      Finished np (mpiRun c w (evolveUpdate (sparseKernel w.d dx f) steps) fun r => .ok (D r)) D' ∧ SameField w np σ' D' 0 := by
  have hd : Disciplined w.d w.ghosts (fun _ => Lists I) ⟨fun k => k = 0 ∨ k = 1, fun _ => False⟩ (evolveUpdate (sparseKernel w.d dx f) steps) bothKnown :=
    .ghostswap (Or.inl rfl) (((sparse_disciplined hgh rfl (sparseKernel_reads dx f) (sparseKernel_keeps dx hf)).steps steps).mono ⟨fun _ => id, fun _ hk => Or.inr hk⟩)
  have hF1 : SameField w np σ D 1 := fun r _ x _ => by show D r 1 _ = σ 1 _; rw [hσ, hD]
  obtain ⟨σ', D', e1, e2, hA, _⟩ := parallel_eq_serial hc hPc h hd (σ := σ) (D := D) (S := fun r => .ok (D r)) (fun _ _ => rfl)
    ⟨fun k hk => hk.elim (fun e => e ▸ hF) fun e => e ▸ hF1, fun _ hk => hk.elim⟩ hS
  exact ⟨σ', D', e1, e2, hA.same 0 (Or.inl rfl)⟩

/-- **C87, Ostwald ripening**; grid 2 is `wspace`, whose cells are scalars. -/
theorem ostwald_parallel (hc : ∀ k, RoundTrips (c k)) (hPc : ∀ k v, Sizes α n 2 k v → (c k).Valid v) (h : w.Ok np) (hgh : 1 ≤ w.ghosts) (hn : 0 < n) (pow2 : α → α) (dx : Nat → α)
    (pot : List α → α → α) (value : List α → List α → α → Nat → α) (steps : Nat) {σ : Grids (List α)} {D : Int → Grids (List α)} (hF : SameField w np σ D 0)
    (hS : AllCells w np (Sizes α n 2) σ D) :
    ∃ σ' D', serialRun w.serial (ostwaldUpdate w.d n pow2 dx pot value steps) σ = .ok σ' ∧
      Finished np (mpiRun c w (ostwaldUpdate w.d n pow2 dx pot value steps) fun r => .ok (D r)) D' ∧ SameField w np σ' D' 0 := by
  have hd : Disciplined w.d w.ghosts (Sizes α n 2) ⟨fun k => k = 0, fun _ => False⟩ (ostwaldUpdate w.d n pow2 dx pot value steps) oldKnown :=
    .ghostswap rfl (((ostwald_disciplined hgh hn pow2 dx pot value).steps steps).mono ⟨fun _ => id, fun _ hk => Or.inr hk⟩)
  obtain ⟨σ', D', e1, e2, hA, _⟩ := parallel_eq_serial hc hPc h hd (σ := σ) (D := D) (S := fun r => .ok (D r)) (fun _ _ => rfl) ⟨fun k hk => hk ▸ hF, fun _ hk => hk.elim⟩ hS
  exact ⟨σ', D', e1, e2, hA.same 0 rfl⟩

omit [Zero α] [One α] [Add α] [Sub α] [Mul α] [Div α] in
/-- **C87, solidification**; grid 2 is `Dgradphi`, grid 3 the static `refGrid`, whose cells are scalars. -/
theorem solid_parallel (hc : ∀ k, RoundTrips (c k)) (hPc : ∀ k v, Sizes α 2 3 k v → (c k).Valid v) (h : w.Ok np) (hgh : 1 ≤ w.ghosts) (flux : α → α → α → α × α)
    (value : Around α → α × α) (steps : Nat) {σ : Grids (List α)} {D : Int → Grids (List α)} (hF : SameField w np σ D 0) (hS : AllCells w np (Sizes α 2 3) σ D) :
    ∃ σ' D', serialRun w.serial (solidUpdate flux value steps) σ = .ok σ' ∧
      Finished np (mpiRun c w (solidUpdate flux value steps) fun r => .ok (D r)) D' ∧ SameField w np σ' D' 0 := by
  have hd : Disciplined w.d w.ghosts (Sizes α 2 3) ⟨fun k => k = 0, fun _ => False⟩ (solidUpdate flux value steps) refKnown := by
    refine .ghostswap rfl (.loop [(0, 0)] keepKernel_reads keepKernel_keeps (by simp) ?_ (.ghostswap (Or.inl rfl) (((solid_disciplined hgh flux value).steps steps).mono ⟨?_, ?_⟩)))
    · intro q hq; simp at hq; subst hq; exact Or.inl ⟨rfl, rfl⟩
    · exact fun k hk => hk.imp id id
    · exact fun k hk => Or.inr hk
  obtain ⟨σ', D', e1, e2, hA, _⟩ := parallel_eq_serial hc hPc h hd (σ := σ) (D := D) (S := fun r => .ok (D r)) (fun _ _ => rfl) ⟨fun k hk => hk ▸ hF, fun _ hk => hk.elim⟩ hS
  exact ⟨σ', D', e1, e2, hA.same 0 (Or.inl rfl)⟩

end Programs

end MMSP.ParallelRun
