import Verif.Code.MemStack
import Verif.Props.Memory
import Verif.Props.Depth

/-!
# C100: the stack that dropping an expression needs
-/

set_option linter.unusedSectionVars false
set_option linter.unusedSimpArgs false

namespace Verif

variable {F : Type}

/-- Addresses and contents of the cells are among those of the other memory. -/
def Store.Within (S S0 : Store F) : Prop := ∀ b ∈ S.blocks, ∃ b0 ∈ S0.blocks, b0.addr = b.addr ∧ b0.cell = b.cell

theorem within_filter {S S0 : Store F} (h : S.Within S0) (p : Block F → Bool) : Store.Within { S with blocks := S.blocks.filter p } S0 :=
  fun b hb => h b (List.mem_filter.1 hb).1

theorem within_setRc {S S0 : Store F} (h : S.Within S0) (f : Nat → Nat) (a : Nat) : Store.Within { S with blocks := setRc f a S.blocks } S0 := by
  intro b hb
  obtain ⟨c, hc, rfl⟩ := List.mem_map.1 hb
  obtain ⟨b0, h1, h2, h3⟩ := h c hc
  refine ⟨b0, h1, ?_, ?_⟩ <;> split <;> simp [h2, h3]

theorem run_append' {S S1 : Store F} {ops ops' : List (MemOp F)} (h : S.run ops = .ok S1) : S.run (ops ++ ops') = S1.run ops' := by
  induction ops generalizing S with
  | nil => cases h; rfl
  | cons op ops ih =>
    simp only [Store.run, List.cons_append] at h ⊢
    cases he : S.exec op with
    | error e => rw [he] at h; cases h
    | ok S2 => rw [he] at h; exact ih h

theorem Store.Reached.run {S S' : Store F} (h : S.Reached) {ops : List (MemOp F)} (hs : S.run ops = .ok S') : S'.Reached := by
  obtain ⟨ops0, h0⟩ := h
  exact ⟨ops0 ++ ops, by rw [run_append' h0, hs]⟩

theorem release_step {S : Store F} {a : Nat} {ps : List Nat} {b : Block F} (hb : S.find a = some b) : Store.exec { S with pending := a :: ps } .release =
    .ok (if b.rc ≤ 1 then { S with blocks := S.blocks.filter (fun b => b.addr != a), pending := b.cell.children ++ ps }
      else { S with blocks := setRc (· - 1) a S.blocks, pending := ps }) := by
  have : Store.find { S with pending := a :: ps } a = some b := hb
  simp only [Store.exec, this]
  split <;> rfl

/-- A destructor that has enough stack does the steps of `release`, in the same order. -/
theorem destroy_run (k : Nat) : ∀ {S S' : Store F} {a : Nat}, S.destroy k a = some S' → ∀ ps, ∃ j, Store.run { S with pending := a :: ps } (List.replicate j .release) = .ok { S' with pending := ps } := by
  induction k with
  | zero => intro S S' a h; simp [Store.destroy] at h
  | succ k ih =>
    intro S S' a h ps
    simp only [Store.destroy] at h
    cases hf : S.find a with
    | none => rw [hf] at h; cases h
    | some b =>
      rw [hf] at h
      simp only at h
      have hs := release_step (ps := ps) hf
      split at h
      · rename_i hrc
        rw [if_pos hrc] at hs
        have key : ∀ (cs : List Nat) (T : Store F), cs.foldlM (fun S c => Store.destroy k S c) T = some S' →
            ∃ j, Store.run { T with pending := cs ++ ps } (List.replicate j .release) = .ok { S' with pending := ps } := by
          intro cs
          induction cs with
          | nil => intro T hT; simp at hT; subst hT; exact ⟨0, rfl⟩
          | cons c cs ihc =>
            intro T hT
            simp only [List.foldlM_cons, Option.bind_eq_bind, Option.bind_eq_some_iff] at hT
            obtain ⟨T', h1, h2⟩ := hT
            obtain ⟨j1, e1⟩ := ih h1 (cs ++ ps)
            obtain ⟨j2, e2⟩ := ihc T' h2
            exact ⟨j1 + j2, by rw [List.replicate_add, List.cons_append, run_append' e1, e2]⟩
        obtain ⟨j, e⟩ := key _ _ h
        refine ⟨j + 1, ?_⟩
        rw [List.replicate_succ]
        simp only [Store.run, hs]
        exact e
      · rename_i hrc
        rw [if_neg hrc] at hs
        cases h
        refine ⟨1, ?_⟩
        simp only [List.replicate_one, Store.run, hs]
        rfl

theorem find_pending {S : Store F} {a : Nat} {ps : List Nat} (hr : Store.Reached { S with pending := a :: ps }) : ∃ b, S.find a = some b := by
  have h := C97_no_dangling hr .release
  cases hf : S.find a with
  | some b => exact ⟨b, rfl⟩
  | none =>
    have : Store.find { S with pending := a :: ps } a = none := hf
    simp [Store.exec, this] at h

/-- Dropping references to expressions of at most `k` levels needs at most `k` nested calls. -/
theorem destroy_total {S0 : Store F} (h0 : S0.Reached) (k : Nat) : ∀ {S : Store F} {a : Nat} {ps : List Nat}, Store.Reached { S with pending := a :: ps } → S.Within S0 →
    ∀ {n : Node F}, MemReads S0 a n → n.depth ≤ k → ∃ S', S.destroy k a = some S' ∧ S'.Within S0 := by
  induction k with
  | zero =>
    intro S a ps _ _ n _ hd
    have := depth_pos n; omega
  | succ k ih =>
    intro S a ps hr hw n hn hd
    obtain ⟨b, hf⟩ := find_pending hr
    simp only [Store.destroy, hf]
    split
    · rename_i hrc
      have hch : ∀ c ∈ b.cell.children, ∃ m, MemReads S0 c m ∧ m.depth ≤ k := by
        obtain ⟨hb, hba⟩ := find_some hf
        obtain ⟨b0, hb0, h1, h2⟩ := hw b hb
        intro c hc
        generalize hx : a = x at hn
        cases hn with
        | mk b' _ hb' hid hs hlen hargs =>
          have : b' = b0 := addr_inj h0.inv.addrs hb' hb0 (by rw [h1, hba, ← hx])
          subst this
          rw [← h2] at hc
          obtain ⟨i, hi⟩ := List.mem_iff_getElem?.1 hc
          obtain ⟨hlt, -⟩ := List.getElem?_eq_some_iff.1 hi
          have hm := List.getElem?_eq_getElem (show i < n.arguments.length by omega)
          have hd' := depth_arg (List.mem_of_getElem? hm)
          exact ⟨_, hargs i c _ hi hm, by omega⟩
      have hs := release_step (ps := ps) hf
      rw [if_pos hrc] at hs
      have hr1 : Store.Reached { S with blocks := S.blocks.filter (fun b => b.addr != a), pending := b.cell.children ++ ps } :=
        hr.run (ops := [.release]) (by simp only [Store.run, hs]; rfl)
      have key : ∀ (cs : List Nat) (T : Store F), (∀ c ∈ cs, ∃ m, MemReads S0 c m ∧ m.depth ≤ k) → Store.Reached { T with pending := cs ++ ps } → T.Within S0 →
          ∃ S', cs.foldlM (fun S c => Store.destroy k S c) T = some S' ∧ S'.Within S0 := by
        intro cs
        induction cs with
        | nil => intro T _ _ hT; exact ⟨T, rfl, hT⟩
        | cons c cs ihc =>
          intro T hc hT hwT
          obtain ⟨m, h1, h2⟩ := hc c (by simp)
          obtain ⟨T', h3, h4⟩ := ih (ps := cs ++ ps) hT hwT h1 h2
          obtain ⟨j, h5⟩ := destroy_run k h3 (cs ++ ps)
          obtain ⟨S', h6, h7⟩ := ihc T' (fun c' hc' => hc c' (by simp [hc'])) (hT.run h5) h4
          exact ⟨S', by simp [List.foldlM_cons, h3, h6], h7⟩
      exact key b.cell.children { S with blocks := S.blocks.filter (fun b => b.addr != a) } hch hr1 (within_filter hw _)
    · exact ⟨_, rfl, within_setRc hw _ _⟩

/-- C100: dropping a reference to an expression needs at most as many nested calls of the destructor as the expression has levels, and it does what `release` does (so C97 says what is in
memory afterwards). -/
theorem C100_drop {S : Store F} (hr : S.Reached) {a : Nat} {ps : List Nat} (hp : S.pending = a :: ps) {n : Node F} (hn : MemReads S a n) {k : Nat} (hk : n.depth ≤ k) :
    ∃ S' j, S.destroy k a = some S' ∧ S.run (List.replicate j .release) = .ok { S' with pending := ps } := by
  have e : S = { S with pending := a :: ps } := by rw [← hp]
  obtain ⟨S', h1, -⟩ := destroy_total hr k (S := S) (ps := ps) (e ▸ hr) (fun b hb => ⟨b, hb, rfl, rfl⟩) hn hk
  obtain ⟨j, h2⟩ := destroy_run k h1 ps
  exact ⟨S', j, h1, by rw [← e] at h2; exact h2⟩

/-- C100: dropping a reference to a constraint needs at most one nested call more than its sides have levels. -/
theorem C100_drop_constraint {S : Store F} (hr : S.Reached) {a : Nat} {ps : List Nat} (hp : S.pending = a :: ps) {c : Constraint F} (hc : MemReadsC S a c) {k : Nat}
    (hl : c.lhs.depth ≤ k) (hr' : c.rhs.depth ≤ k) : ∃ S' j, S.destroy (k + 1) a = some S' ∧ S.run (List.replicate j .release) = .ok { S' with pending := ps } := by
  have e : S = { S with pending := a :: ps } := by rw [← hp]
  suffices h : ∃ S', S.destroy (k + 1) a = some S' by
    obtain ⟨S', h1⟩ := h
    obtain ⟨j, h2⟩ := destroy_run _ h1 ps
    exact ⟨S', j, h1, by rw [← e] at h2; exact h2⟩
  obtain ⟨b, hf⟩ := find_pending (e ▸ hr)
  simp only [Store.destroy, hf]
  split
  · rename_i hrc
    obtain ⟨b0, hb0, h1, -, x, y, h2, hx, hy⟩ := hc
    obtain ⟨hb, hba⟩ := find_some hf
    have : b0 = b := addr_inj hr.inv.addrs hb0 hb (by rw [h1, hba])
    subst this
    have hs := release_step (ps := ps) hf
    rw [if_pos hrc, h2] at hs
    simp only [h2, Cell.children, List.cons_append, List.nil_append] at hs ⊢
    have hr1 : Store.Reached { S with blocks := S.blocks.filter (fun b => b.addr != a), pending := x :: y :: ps } :=
      (show Store.Reached { S with pending := a :: ps } from e ▸ hr).run (ops := [.release]) (by simp only [Store.run, hs]; rfl)
    have hw0 : Store.Within { S with blocks := S.blocks.filter (fun b => b.addr != a) } S := within_filter (fun b hb => ⟨b, hb, rfl, rfl⟩) _
    obtain ⟨T, h3, h4⟩ := destroy_total hr k (S := { S with blocks := S.blocks.filter (fun b => b.addr != a) }) (ps := y :: ps) hr1 hw0 hx hl
    obtain ⟨j, h5⟩ := destroy_run k h3 (y :: ps)
    obtain ⟨T', h6, -⟩ := destroy_total hr k (S := T) (ps := ps) (hr1.run h5) h4 hy hr'
    exact ⟨T', by simp [h3, h6]⟩
  · exact ⟨_, rfl⟩

/-! ## Deep expressions -/

/-- A program that multiplies `k` times by a variable, and keeps the variable and the last product. The allocator gives out the addresses `0`, `1`, `2`, ... Code: `e = FunctionMul::new(e, x.clone())`,
src/model/function/mul.rs:20-26 (`e = &e * &x` clones the old `e` into the cell and then drops it, which is the same). -/
def productsMem (F : Type) (s : String) (kind : VarKind) (k : Nat) : List (MemOp F) :=
  .new (.var s kind) 0 :: .clone 0 :: (List.range k).flatMap fun j => [.clone 0, .new (.mul j 0) (j + 1)]

/-- The cells after that, where the count of the variable is `r`. -/
def chainBlocks (F : Type) (s : String) (kind : VarKind) (r : Nat) : Nat → List (Block F)
  | 0 => [⟨0, r, 0, .var s kind⟩]
  | k + 1 => ⟨k + 1, 1, k + 1, .mul k 0⟩ :: chainBlocks F s kind r k

/-- The memory after that. -/
def chainStore (F : Type) (s : String) (kind : VarKind) (k : Nat) : Store F := ⟨chainBlocks F s kind (k + 2) k, k + 1, [k, 0], []⟩

section
variable {s : String} {kind : VarKind} {r k : Nat}

theorem chain_find_zero : (chainBlocks F s kind r k).find? (fun b => b.addr == 0) = some ⟨0, r, 0, .var s kind⟩ := by
  induction k with
  | zero => rfl
  | succ k ih => simpa [chainBlocks] using ih

theorem chain_find_succ {j : Nat} (h : j < k) : (chainBlocks F s kind r k).find? (fun b => b.addr == j + 1) = some ⟨j + 1, 1, j + 1, .mul j 0⟩ := by
  induction k with
  | zero => omega
  | succ k ih =>
    simp only [chainBlocks, List.find?_cons]
    by_cases hj : j = k
    · subst hj; simp
    · have : (k + 1 == j + 1) = false := by simp; omega
      rw [this]
      exact ih (by omega)

theorem chain_addr {b : Block F} (h : b ∈ chainBlocks F s kind r k) : b.addr ≤ k := by
  induction k with
  | zero => simp only [chainBlocks, List.mem_singleton] at h; subst h; exact Nat.le_refl _
  | succ k ih =>
    rcases List.mem_cons.1 h with rfl | h
    · exact Nat.le_refl _
    · exact (ih h).trans (Nat.le_succ k)

theorem chain_setRc (f : Nat → Nat) : setRc f 0 (chainBlocks F s kind r k) = chainBlocks F s kind (f r) k := by
  induction k with
  | zero => rfl
  | succ k ih =>
    simp only [chainBlocks, setRc, List.map_cons] at ih ⊢
    simp [ih]

theorem chain_step : (chainStore F s kind k).run [.clone 0, .new (.mul k 0) (k + 1)] = .ok (chainStore F s kind (k + 1)) := by
  have h1 : (chainStore F s kind k).exec (.clone 0) = .ok ⟨chainBlocks F s kind (k + 3) k, k + 1, [0, k, 0], []⟩ := by
    have : (chainStore F s kind k).find 0 = some ⟨0, k + 2, 0, .var s kind⟩ := chain_find_zero
    simp only [Store.exec, this]
    simp [chainStore, chain_setRc]
  have h2 : Store.exec ⟨chainBlocks F s kind (k + 3) k, k + 1, [0, k, 0], []⟩ (.new (.mul k 0) (k + 1)) = .ok (chainStore F s kind (k + 1)) := by
    have hz : (⟨chainBlocks F s kind (k + 3) k, k + 1, [0, k, 0], []⟩ : Store F).nodeAt 0 = true := by
      simp [Store.nodeAt, Store.find, chain_find_zero, Cell.isNode]
    have hk : (⟨chainBlocks F s kind (k + 3) k, k + 1, [0, k, 0], []⟩ : Store F).nodeAt k = true := by
      cases k with
      | zero => exact hz
      | succ j => simp [Store.nodeAt, Store.find, chain_find_succ (Nat.lt_succ_self j), Cell.isNode]
    have ha : (chainBlocks F s kind (k + 3) k).any (fun b => b.addr == k + 1) = false := by
      rw [List.any_eq_false]
      intro b hb
      have := chain_addr hb
      simp; omega
    have ht : takeOut [k, 0] [0, k, 0] = some [0] := by
      cases k with
      | zero => rfl
      | succ j => simp [takeOut, List.erase_cons]
    simp only [Store.exec, Cell.children, ha, List.all_cons, hk, hz, ht]
    rfl
  have h2' := congrArg (fun x => x >>= fun S : Store F => (Except.ok S : Except MemFault (Store F))) h2
  simp only [Store.run, h1]
  exact h2'

theorem chain_run : (Store.start : Store F).run (productsMem F s kind k) = .ok (chainStore F s kind k) := by
  induction k with
  | zero => rfl
  | succ k ih =>
    have : productsMem F s kind (k + 1) = productsMem F s kind k ++ [.clone 0, .new (.mul k 0) (k + 1)] := by
      simp [productsMem, List.range_succ, List.flatMap_append]
    rw [this, run_append' ih, chain_step]

/-- If the cells are a chain, the destructor goes down all of it. -/
theorem destroy_chain (m : Nat) : ∀ {S : Store F} {j : Nat}, (∀ i < j, S.find (i + 1) = some ⟨i + 1, 1, i + 1, .mul i 0⟩) → m ≤ j → S.destroy m j = none := by
  induction m with
  | zero => intro S j _ _; rfl
  | succ m ih =>
    intro S j hS hm
    obtain ⟨i, rfl⟩ : ∃ i, j = i + 1 := ⟨j - 1, by omega⟩
    simp only [Store.destroy, hS i (Nat.lt_succ_self i), Nat.le_refl, if_true, Cell.children, List.foldlM_cons]
    have : Store.destroy m { S with blocks := S.blocks.filter (fun b => b.addr != i + 1) } i = none := by
      refine ih (fun l hl => ?_) (by omega)
      have := hS l (by omega)
      unfold Store.find at this ⊢
      simp only
      rw [List.find?_filter]
      rw [← this]
      congr 1
      funext b
      by_cases hb : b.addr = l + 1
      · simp [hb]; omega
      · simp [hb]
    rw [this]
    rfl

/-- C100: products are not flattened: for every stack there is a program (multiply `k` times by a variable) whose last product cannot be dropped on it, although it can be dropped on a stack for
`k + 1` nested calls. -/
theorem C100_drop_deep (k : Nat) : ∃ S S' : Store F, (Store.start : Store F).run (productsMem F s kind k) = .ok S ∧ k ∈ S.handles ∧ S.exec (.drop k) = .ok S' ∧
    S'.destroy k k = none ∧ ∃ S'', S'.destroy (k + 1) k = some S'' := by
  refine ⟨_, { chainStore F s kind k with handles := (chainStore F s kind k).handles.erase k, pending := [k] }, chain_run, by simp [chainStore], ?_, ?_, ?_⟩
  · simp [Store.exec, chainStore]
  · exact destroy_chain k (fun i hi => chain_find_succ hi) (Nat.le_refl _)
  · have hr : (chainStore F s kind k).Reached := ⟨_, chain_run⟩
    have hr' : Store.Reached { chainStore F s kind k with handles := (chainStore F s kind k).handles.erase k, pending := [k] } :=
      hr.run (ops := [.drop k]) (by simp [Store.run, Store.exec, chainStore]; rfl)
    have hreads : ∀ j ≤ k, ∃ n, MemReads ({ chainStore F s kind k with handles := (chainStore F s kind k).handles.erase k, pending := [k] } : Store F) j n ∧ n.depth = j + 1 := by
      intro j
      induction j with
      | zero => 
        intro _
        refine ⟨.var 0 s kind, ?_, rfl⟩
        exact .mk ⟨0, k + 2, 0, .var s kind⟩ _ (List.mem_of_find?_eq_some chain_find_zero) rfl ⟨rfl, rfl⟩ rfl (fun i c m h => by simp [Cell.children] at h)
      | succ j ih =>
        intro hj
        obtain ⟨n, h1, h2⟩ := ih (by omega)
        refine ⟨.mul (j + 1) n (.var 0 s kind), ?_, ?_⟩
        · refine .mk ⟨j + 1, 1, j + 1, .mul j 0⟩ _ (List.mem_of_find?_eq_some (chain_find_succ (by omega))) rfl trivial rfl (fun i c m h h' => ?_)
          match i with
          | 0 => simp [Cell.children] at h; simp [Node.arguments] at h'; subst h h'; exact h1
          | 1 =>
            simp [Cell.children] at h; simp [Node.arguments] at h'; subst h h'
            exact .mk ⟨0, k + 2, 0, .var s kind⟩ _ (List.mem_of_find?_eq_some chain_find_zero) rfl ⟨rfl, rfl⟩ rfl (fun i c m h => by simp [Cell.children] at h)
          | i + 2 => simp [Cell.children] at h
        · simp only [Node.depth, h2]; omega
    obtain ⟨n, h1, h2⟩ := hreads k (Nat.le_refl _)
    obtain ⟨S'', j, h3, -⟩ := C100_drop hr' rfl h1 (Nat.le_of_eq h2)
    exact ⟨S'', h3⟩

end

/-! ## An example: the constraint `x * x <= x` -/

def dropEx : List (MemOp Nat) := [.new (.var "x" .continuous) 7, .clone 7, .clone 7, .new (.mul 7 7) 3, .new (.constr 3 .lessEqual 7 "") 5, .drop 5]

/-- Dropping it needs three nested calls, and nothing is left. -/
example : (match (Store.start : Store Nat).run dropEx with
    | .ok S => (S.destroy 2 5).isNone && (match S.destroy 3 5 with | some S' => S'.blocks.isEmpty && S'.handles.isEmpty | none => false) | .error _ => false) = true := by
  decide +kernel

end Verif
