import Verif.Proofs.Memory
import Verif.Spec.Example

/-!
# C97: equality of expressions and constraints and their meaning survive the release and reuse of memory
-/

set_option linter.unusedSectionVars false

namespace Verif

variable {F : Type}

/-! ## Safety -/

/-- C97: no operation ever follows a reference to a cell that has been released, whatever was created, cloned, dropped and released before, and whatever addresses the
allocator chose. -/
theorem C97_no_dangling {S : Store F} (hr : S.Reached) (op : MemOp F) : S.exec op ≠ .error .dangling := by
  have h := hr.inv
  have hfind : ∀ a ∈ S.refs, ∃ b, S.find a = some b := by
    intro a ha
    cases hf : S.find a with
    | some b => exact ⟨b, rfl⟩
    | none =>
      obtain ⟨b, hb, he⟩ := h.valid a ha
      exact absurd he (find_none hf b hb)
  have hh : ∀ a ∈ S.handles, a ∈ S.refs := fun a ha => List.mem_append_left _ ha
  intro he
  cases op with
  | new c a =>
    simp only [Store.exec] at he
    split at he
    · cases he
    · split at he
      · cases he
      · split at he <;> cases he
  | clone a =>
    simp only [Store.exec] at he
    split at he
    · rename_i hm
      obtain ⟨b, hb⟩ := hfind a (hh a hm)
      rw [hb] at he
      cases he
    · cases he
  | arg a c =>
    simp only [Store.exec] at he
    split at he
    · rename_i hm
      obtain ⟨b, hb⟩ := hfind a (hh a hm)
      rw [hb] at he
      simp only at he
      split at he
      · rename_i hc
        obtain ⟨d, hd⟩ := hfind c (List.mem_append_right _ (List.mem_append_right _ (List.mem_flatMap.2 ⟨b, (find_some hb).1, hc⟩)))
        rw [hd] at he
        cases he
      · cases he
    · cases he
  | drop a =>
    simp only [Store.exec] at he
    split at he <;> cases he
  | release =>
    simp only [Store.exec] at he
    split at he
    · cases he
    · rename_i a ps hps
      obtain ⟨b, hb⟩ := hfind a (List.mem_append_right _ (List.mem_append_left _ (by simp [hps])))
      rw [hb] at he
      simp only at he
      split at he <;> cases he

/-! ## Each handle denotes one expression -/

theorem node_of_cell (c : Cell F) (i : Nat) (ns : List (Node F)) (hn : c.isNode = true) (h : c.children.length = ns.length) : ∃ n : Node F, n.id = i ∧ c.Same n ∧ n.arguments = ns := by
  cases c with
  | const v => cases ns with
    | nil => exact ⟨.const i v, rfl, rfl, rfl⟩
    | cons => cases h
  | var s k => cases ns with
    | nil => exact ⟨.var i s k, rfl, ⟨rfl, rfl⟩, rfl⟩
    | cons => cases h
  | add args => exact ⟨.add i ns, rfl, trivial, rfl⟩
  | cos a => match ns, h with
    | [x], _ => exact ⟨.cos i x, rfl, trivial, rfl⟩
  | sin a => match ns, h with
    | [x], _ => exact ⟨.sin i x, rfl, trivial, rfl⟩
  | div a b => match ns, h with
    | [x, y], _ => exact ⟨.div i x y, rfl, trivial, rfl⟩
  | mul a b => match ns, h with
    | [x, y], _ => exact ⟨.mul i x y, rfl, trivial, rfl⟩
  | constr => cases hn

theorem node_ext {c : Cell F} {n n' : Node F} (hi : n.id = n'.id) (h : c.Same n) (h' : c.Same n') (ha : n.arguments = n'.arguments) : n = n' := by
  cases c <;> cases n <;> cases n' <;> simp_all [Cell.Same, Node.id, Node.arguments]

theorem tag_same {c : Cell F} {n : Node F} (h : c.Same n) : c.tag = n.tag := by
  cases c <;> cases n <;> first | rfl | exact absurd h (by simp [Cell.Same])

theorem reads_exists {S : Store F} (h : S.Inv) : ∀ (k : Nat) (b : Block F), b.id = k → b ∈ S.blocks → b.cell.isNode = true → ∃ n, MemReads S b.addr n := by
  intro k
  induction k using Nat.strong_induction_on with
  | _ k ih =>
    intro b hk hb hnode
    have hch : ∀ c ∈ b.cell.children, ∃ n, MemReads S c n := by
      intro c hc
      obtain ⟨b', hb', rfl⟩ := h.valid c (List.mem_append_right _ (List.mem_append_right _ (List.mem_flatMap.2 ⟨b, hb, hc⟩)))
      exact ih b'.id (hk ▸ h.older b hb _ hc b' hb' rfl) b' rfl hb' (h.typed b hb _ hc b' hb' rfl)
    have : ∃ ns : List (Node F), b.cell.children.length = ns.length ∧ ∀ (i c : Nat) (m : Node F), b.cell.children[i]? = some c → ns[i]? = some m → MemReads S c m := by
      clear ih
      revert hch
      generalize b.cell.children = cs
      intro hch
      induction cs with
      | nil => exact ⟨[], rfl, by simp⟩
      | cons c cs ih2 =>
        obtain ⟨n, hn⟩ := hch c (by simp)
        obtain ⟨ns, h1, h2⟩ := ih2 fun c hc => hch c (by simp [hc])
        refine ⟨n :: ns, by simp [h1], ?_⟩
        intro i c' m hc hm
        cases i with
        | zero => simp at hc hm; subst hc hm; exact hn
        | succ i => exact h2 i c' m (by simpa using hc) (by simpa using hm)
    obtain ⟨ns, h1, h2⟩ := this
    obtain ⟨n, hid, hs, hargs⟩ := node_of_cell b.cell b.id ns hnode h1
    exact ⟨n, .mk b n hb hid.symm hs (by rw [hargs, h1]) (by rw [hargs]; exact h2)⟩

theorem reads_unique {S : Store F} (h : S.Inv) {a : Nat} {n : Node F} (hn : MemReads S a n) : ∀ {n'}, MemReads S a n' → n = n' := by
  induction hn with
  | mk b n hb hid hc hlen _ ih =>
    intro n' hn'
    generalize hx : b.addr = x at hn'
    cases hn' with
    | mk b' n' hb' hid' hc' hlen' hargs' =>
    have := addr_inj h.addrs hb hb' hx
    subst this
    refine node_ext (hid.symm.trans hid') hc hc' (List.ext_getElem? fun i => ?_)
    by_cases hi : i < b.cell.children.length
    · have h1 : i < n.arguments.length := hlen ▸ hi
      have h2 : i < n'.arguments.length := hlen' ▸ hi
      rw [List.getElem?_eq_getElem h1, List.getElem?_eq_getElem h2]
      rw [ih i _ _ (List.getElem?_eq_getElem hi) (List.getElem?_eq_getElem h1) (hargs' i _ _ (List.getElem?_eq_getElem hi) (List.getElem?_eq_getElem h2))]
    · rw [List.getElem?_eq_none (by omega), List.getElem?_eq_none (by omega)]

theorem readsC_unique {S : Store F} (h : S.Inv) {a : Nat} {k k' : Constraint F} (hk : MemReadsC S a k) (hk' : MemReadsC S a k') : k = k' := by
  obtain ⟨b, hb, rfl, hid, x, y, hc, hx, hy⟩ := hk
  obtain ⟨b', hb', ha, hid', x', y', hc', hx', hy'⟩ := hk'
  have := addr_inj h.addrs hb' hb ha
  subst this
  rw [hc] at hc'
  injection hc' with e1 e2 e3 e4
  subst e1 e3
  obtain ⟨i, l, c, r, t⟩ := k
  obtain ⟨i', l', c', r', t'⟩ := k'
  simp only at hid hid' e2 e4 hx hx' hy hy'
  rw [reads_unique h hx hx', reads_unique h hy hy', e2, e4, ← hid, hid']

/-- At a cell in use, one reads either exactly one expression and no constraint, or exactly one constraint and no expression. -/
theorem reads_either {S : Store F} (h : S.Inv) {b : Block F} (hb : b ∈ S.blocks) :
    ((∃! n, MemReads S b.addr n) ∧ ∀ k, ¬ MemReadsC S b.addr k) ∨ ((∃! k, MemReadsC S b.addr k) ∧ ∀ n, ¬ MemReads S b.addr n) := by
  cases hn : b.cell.isNode with
  | true =>
    obtain ⟨n, h1⟩ := reads_exists h _ b rfl hb hn
    refine .inl ⟨⟨n, h1, fun n' hn' => (reads_unique h h1 hn').symm⟩, ?_⟩
    rintro k ⟨b', hb', ha, -, x, y, hc, -⟩
    have := addr_inj h.addrs hb' hb ha
    subst this
    rw [hc] at hn; cases hn
  | false =>
    obtain ⟨l, kd, r, t, hc⟩ : ∃ l kd r t, b.cell = .constr l kd r t := by
      cases hc : b.cell <;> rw [hc] at hn <;> first | exact ⟨_, _, _, _, rfl⟩ | cases hn
    have side : ∀ x ∈ b.cell.children, ∃ n, MemReads S x n := by
      intro x hx
      obtain ⟨b', hb', rfl⟩ := h.valid x (List.mem_append_right _ (List.mem_append_right _ (List.mem_flatMap.2 ⟨b, hb, hx⟩)))
      exact reads_exists h _ b' rfl hb' (h.typed b hb _ hx b' hb' rfl)
    obtain ⟨n, hn1⟩ := side l (by rw [hc]; simp [Cell.children])
    obtain ⟨m, hm1⟩ := side r (by rw [hc]; simp [Cell.children])
    have hk : MemReadsC S b.addr ⟨b.id, n, kd, m, t⟩ := ⟨b, hb, rfl, rfl, l, r, hc, hn1, hm1⟩
    refine .inr ⟨⟨_, hk, fun k' hk' => (readsC_unique h hk hk').symm⟩, ?_⟩
    intro n' hn'
    generalize hx : b.addr = x at hn'
    cases hn' with
    | mk b' n hb' hid hs =>
      have := addr_inj h.addrs hb hb' hx
      subst this
      rw [hc] at hs
      simp [Cell.Same] at hs

/-- C97: at every time, each reference that the program holds denotes exactly one expression, or exactly one constraint. -/
theorem C97_denotes {S : Store F} (hr : S.Reached) {a : Nat} (ha : a ∈ S.handles) :
    ((∃! n, MemReads S a n) ∧ ∀ k, ¬ MemReadsC S a k) ∨ ((∃! k, MemReadsC S a k) ∧ ∀ n, ¬ MemReads S a n) := by
  obtain ⟨b, hb, rfl⟩ := hr.inv.valid a (List.mem_append_left _ ha)
  exact reads_either hr.inv hb

/-! ## Identity -/

/-- C97: comparing the addresses of two cells in use is the same as comparing the numbers that `Code/Node.lean` gives to cells (and never gives again), and equal handles
have equal hashes. -/
theorem C97_identity {S : Store F} (hr : S.Reached) {b c : Block F} (hb : b ∈ S.blocks) (hc : c ∈ S.blocks) {n m : Node F} (hn : MemReads S b.addr n) (hm : MemReads S c.addr m) :
    handleEq b c = n.ptrEq m ∧ (n.ptrEq m = true → handleHash b = handleHash c) := by
  have key : ∀ {b : Block F} {n}, b ∈ S.blocks → MemReads S b.addr n → b.id = n.id ∧ b.cell.tag = n.tag := by
    intro b n hb hn
    generalize hx : b.addr = x at hn
    cases hn with
    | mk b' n hb' hid hs =>
      have := addr_inj hr.inv.addrs hb hb' hx
      subst this
      exact ⟨hid, tag_same hs⟩
  obtain ⟨h1, h2⟩ := key hb hn
  obtain ⟨h3, h4⟩ := key hc hm
  have hiff : (b.addr == c.addr) = (n.id == m.id) := by
    rw [← h1, ← h3, Bool.eq_iff_iff, beq_iff_eq, beq_iff_eq]
    constructor
    · intro he; rw [addr_inj hr.inv.addrs hb hc he]
    · intro he; rw [List.inj_on_of_nodup_map hr.inv.ids hb hc he]
  have he : handleEq b c = n.ptrEq m := by
    unfold handleEq Node.ptrEq
    rw [h2, h4, hiff]
  refine ⟨he, fun h => ?_⟩
  rw [← he, handleEq, Bool.and_eq_true, beq_iff_eq, beq_iff_eq] at h
  exact h.2

/-- C97, for constraints: comparing addresses is comparing the numbers that `Code/Constraint.lean` gives. -/
theorem C97_constraint_identity {S : Store F} (hr : S.Reached) {b c : Block F} (hb : b ∈ S.blocks) (hc : c ∈ S.blocks) {k l : Constraint F} (hk : MemReadsC S b.addr k)
    (hl : MemReadsC S c.addr l) : handleEq b c = k.ptrEq l ∧ (k.ptrEq l = true → handleHash b = handleHash c) := by
  obtain ⟨b', hb', ha, h1, x, y, h2, -⟩ := hk
  obtain ⟨c', hc', ha', h3, x', y', h4, -⟩ := hl
  have := addr_inj hr.inv.addrs hb' hb ha
  subst this
  have := addr_inj hr.inv.addrs hc' hc ha'
  subst this
  have hiff : (b'.addr == c'.addr) = (k.id == l.id) := by
    rw [← h1, ← h3, Bool.eq_iff_iff, beq_iff_eq, beq_iff_eq]
    constructor
    · intro he; rw [addr_inj hr.inv.addrs hb hc he]
    · intro he; rw [List.inj_on_of_nodup_map hr.inv.ids hb hc he]
  have he : handleEq b' c' = k.ptrEq l := by
    unfold handleEq Constraint.ptrEq
    rw [h2, h4, hiff]; rfl
  refine ⟨he, fun h => ?_⟩
  rw [← he, handleEq, Bool.and_eq_true, beq_iff_eq, beq_iff_eq] at h
  exact h.2

/-! ## Stability -/

theorem block_kept {S S' : Store F} {op : MemOp F} (h : S.Inv) (he : S.exec op = .ok S') {b : Block F} (hb : b ∈ S.blocks) (ha : b.addr ∈ S'.refs) :
    ∃ b' ∈ S'.blocks, b'.addr = b.addr ∧ b'.id = b.id ∧ b'.cell = b.cell := by
  have h' := inv_exec h he
  cases op with
  | new c a =>
    simp only [Store.exec] at he
    split at he
    · cases he
    · split at he
      · cases he
      · split at he
        · cases he
        · cases he; exact ⟨b, List.mem_cons_of_mem _ hb, rfl, rfl, rfl⟩
  | clone a =>
    simp only [Store.exec] at he
    split at he
    · split at he
      · cases he
      · cases he; exact setRc_mem hb
    · cases he
  | arg a c =>
    simp only [Store.exec] at he
    split at he
    · split at he
      · cases he
      · split at he
        · split at he
          · cases he
          · cases he; exact setRc_mem hb
        · cases he
    · cases he
  | drop a =>
    simp only [Store.exec] at he
    split at he
    · cases he; exact ⟨b, hb, rfl, rfl, rfl⟩
    · cases he
  | release =>
    simp only [Store.exec] at he
    split at he
    · cases he
    split at he
    · cases he
    split at he
    · simp only [Except.ok.injEq] at he
      obtain ⟨b', hb', hba⟩ := h'.valid _ ha
      have : b' ∈ S.blocks := by subst he; exact (List.mem_filter.1 hb').1
      have := addr_inj h.addrs this hb hba
      subst this
      exact ⟨b', hb', rfl, rfl, rfl⟩
    · cases he; exact setRc_mem (f := (· - 1)) hb

theorem reads_exec {S S' : Store F} {op : MemOp F} (h : S.Inv) (he : S.exec op = .ok S') {a : Nat} {n : Node F} (hn : MemReads S a n) : a ∈ S'.refs → MemReads S' a n := by
  induction hn with
  | mk b n hb hid hc hlen _ ih =>
    intro ha
    obtain ⟨b', hb', h1, h2, h3⟩ := block_kept h he hb ha
    rw [← h1]
    refine .mk b' n hb' (h2.trans hid) (h3 ▸ hc) (h3 ▸ hlen) ?_
    intro i c m hi hm
    rw [h3] at hi
    refine ih i c m hi hm (List.mem_append_right _ (List.mem_append_right _ (List.mem_flatMap.2 ⟨b', hb', ?_⟩)))
    rw [h3]
    exact List.mem_of_getElem? hi

theorem readsC_exec {S S' : Store F} {op : MemOp F} (h : S.Inv) (he : S.exec op = .ok S') {a : Nat} {k : Constraint F} (hk : MemReadsC S a k) (ha : a ∈ S'.refs) :
    MemReadsC S' a k := by
  obtain ⟨b, hb, rfl, hid, x, y, hc, hx, hy⟩ := hk
  obtain ⟨b', hb', h1, h2, h3⟩ := block_kept h he hb ha
  have hch : ∀ z ∈ b'.cell.children, z ∈ S'.refs := fun z hz => List.mem_append_right _ (List.mem_append_right _ (List.mem_flatMap.2 ⟨b', hb', hz⟩))
  rw [h3, hc] at hch
  exact ⟨b', hb', h1, h2.trans hid, x, y, h3.trans hc, reads_exec h he hx (hch x (by simp [Cell.children])), reads_exec h he hy (hch y (by simp [Cell.children]))⟩

/-- The reference is held before and after each of the operations. -/
def Store.Holds (a : Nat) : Store F → List (MemOp F) → Prop
  | S, [] => a ∈ S.handles
  | S, op :: ops => a ∈ S.handles ∧ ∀ S', S.exec op = .ok S' → Store.Holds a S' ops

/-- C97: as long as the program holds a reference, the expression or constraint that it denotes stays the same, whatever is created, cloned, dropped and released
elsewhere. -/
theorem C97_stable {S S' : Store F} (hr : S.Reached) {ops : List (MemOp F)} {a : Nat} (hh : S.Holds a ops) (he : S.run ops = .ok S') :
    (∀ n, MemReads S a n → MemReads S' a n) ∧ ∀ k, MemReadsC S a k → MemReadsC S' a k := by
  have h := hr.inv
  clear hr
  induction ops generalizing S with
  | nil => cases he; exact ⟨fun _ h => h, fun _ h => h⟩
  | cons op ops ih =>
    simp only [Store.run] at he
    cases h1 : S.exec op with
    | error e => rw [h1] at he; cases he
    | ok S1 =>
      rw [h1] at he
      have hh1 := hh.2 S1 h1
      have ha : a ∈ S1.handles := by
        cases ops with
        | nil => exact hh1
        | cons => exact hh1.1
      obtain ⟨i1, i2⟩ := ih hh1 he (inv_exec h h1)
      exact ⟨fun n hn => i1 n (reads_exec h h1 hn (List.mem_append_left _ ha)), fun k hk => i2 k (readsC_exec h h1 hk (List.mem_append_left _ ha))⟩

/-- `run` in two parts. -/
theorem run_append {S : Store F} (ops ops' : List (MemOp F)) : S.run (ops ++ ops') = (S.run ops).bind fun S' => S'.run ops' := by
  induction ops generalizing S with
  | nil => rfl
  | cons op ops ih =>
    simp only [List.cons_append, Store.run]
    cases S.exec op with
    | error e => rfl
    | ok S1 => exact ih

/-! ## The constructors -/

theorem reads_new {S S' : Store F} (h : S.Inv) {c : Cell F} {a : Nat} (he : S.exec (.new c a) = .ok S') {n : Node F} (hid : n.id = S.next) (hs : c.Same n)
    (hargs : List.Forall₂ (MemReads S) c.children n.arguments) : MemReads S' a n ∧ S'.next = S.next + 1 := by
  have he' := he
  simp only [Store.exec] at he'
  split at he'
  · cases he'
  split at he'
  · cases he'
  split at he'
  · cases he'
  simp only [Except.ok.injEq] at he'
  have hb : (⟨a, 1, S.next, c⟩ : Block F) ∈ S'.blocks := by subst he'; exact List.mem_cons_self
  refine ⟨?_, by subst he'; rfl⟩
  refine MemReads.mk ⟨a, 1, S.next, c⟩ n hb hid.symm hs hargs.length_eq ?_
  intro i x m hx hm
  refine reads_exec h he ?_ (List.mem_append_right _ (List.mem_append_right _ (List.mem_flatMap.2 ⟨_, hb, List.mem_of_getElem? hx⟩)))
  have hi : i < c.children.length := (List.getElem?_eq_some_iff.1 hx).1
  have hi' : i < n.arguments.length := hargs.length_eq ▸ hi
  have := hargs.get hi hi'
  simp only [List.get_eq_getElem] at this
  rw [(List.getElem?_eq_some_iff.1 hx).2, (List.getElem?_eq_some_iff.1 hm).2] at this
  exact this

/-- C97: whatever address the allocator chooses, a new cell denotes the expression that the constructor of `Code/Node.lean` returns for the expressions denoted by the
arguments; so the theorems about `Code/Node.lean` are about expressions in memory. -/
theorem C97_constructors {S S' : Store F} (hr : S.Reached) (a : Nat) :
    (∀ v, S.exec (.new (.const v) a) = .ok S' → ∃ n, newConst v S.next = .ok (n, S'.next) ∧ MemReads S' a n) ∧
    (∀ s k, S.exec (.new (.var s k) a) = .ok S' → ∃ n, newVar s k S.next = .ok (n, S'.next) ∧ MemReads S' a n) ∧
    (∀ as ns, List.Forall₂ (MemReads S) as ns → 2 ≤ as.length → S.exec (.new (.add as) a) = .ok S' → ∃ n, newAdd ns S.next = .ok (n, S'.next) ∧ MemReads S' a n) ∧
    (∀ x m, MemReads S x m → S.exec (.new (.cos x) a) = .ok S' → ∃ n, newCos m S.next = .ok (n, S'.next) ∧ MemReads S' a n) ∧
    (∀ x m, MemReads S x m → S.exec (.new (.sin x) a) = .ok S' → ∃ n, newSin m S.next = .ok (n, S'.next) ∧ MemReads S' a n) ∧
    (∀ x y m l, MemReads S x m → MemReads S y l → S.exec (.new (.mul x y) a) = .ok S' → ∃ n, newMul m l S.next = .ok (n, S'.next) ∧ MemReads S' a n) ∧
    (∀ x y m l, MemReads S x m → MemReads S y l → S.exec (.new (.div x y) a) = .ok S' → ∃ n, newDiv m l S.next = .ok (n, S'.next) ∧ MemReads S' a n) ∧
    (∀ x y m l kind label, MemReads S x m → MemReads S y l → S.exec (.new (.constr x kind y label) a) = .ok S' →
      ∃ k, newConstraint m kind l label S.next = .ok (k, S'.next) ∧ MemReadsC S' a k) := by
  have h := hr.inv
  refine ⟨?_, ?_, ?_, ?_, ?_, ?_, ?_, ?_⟩
  · intro v he
    obtain ⟨h1, h2⟩ := reads_new h he (n := .const S.next v) rfl rfl .nil
    exact ⟨_, by rw [h2]; rfl, h1⟩
  · intro s k he
    obtain ⟨h1, h2⟩ := reads_new h he (n := .var S.next s k) rfl ⟨rfl, rfl⟩ .nil
    exact ⟨_, by rw [h2]; rfl, h1⟩
  · intro as ns hf hl he
    obtain ⟨h1, h2⟩ := reads_new h he (n := .add S.next ns) rfl trivial hf
    refine ⟨_, ?_, h1⟩
    rw [h2, newAdd, if_pos (hf.length_eq ▸ hl)]
    rfl
  · intro x m hx he
    obtain ⟨h1, h2⟩ := reads_new h he (n := .cos S.next m) rfl trivial (.cons hx .nil)
    exact ⟨_, by rw [h2]; rfl, h1⟩
  · intro x m hx he
    obtain ⟨h1, h2⟩ := reads_new h he (n := .sin S.next m) rfl trivial (.cons hx .nil)
    exact ⟨_, by rw [h2]; rfl, h1⟩
  · intro x y m l hx hy he
    obtain ⟨h1, h2⟩ := reads_new h he (n := .mul S.next m l) rfl trivial (.cons hx (.cons hy .nil))
    exact ⟨_, by rw [h2]; rfl, h1⟩
  · intro x y m l hx hy he
    obtain ⟨h1, h2⟩ := reads_new h he (n := .div S.next m l) rfl trivial (.cons hx (.cons hy .nil))
    exact ⟨_, by rw [h2]; rfl, h1⟩
  · intro x y m l kind label hx hy he
    have he' := he
    simp only [Store.exec] at he'
    split at he'
    · cases he'
    split at he'
    · cases he'
    split at he'
    · cases he'
    simp only [Except.ok.injEq] at he'
    have hb : (⟨a, 1, S.next, .constr x kind y label⟩ : Block F) ∈ S'.blocks := by subst he'; exact List.mem_cons_self
    have hch : ∀ z ∈ [x, y], z ∈ S'.refs := fun z hz => List.mem_append_right _ (List.mem_append_right _ (List.mem_flatMap.2 ⟨_, hb, hz⟩))
    refine ⟨⟨S.next, m, kind, l, label⟩, ?_, _, hb, rfl, rfl, x, y, rfl, reads_exec h he hx (hch x (by simp)), reads_exec h he hy (hch y (by simp))⟩
    have : S'.next = S.next + 1 := by subst he'; rfl
    rw [this]; rfl

/-! ## Release -/

/-- C97: nothing leaks: when nothing is left to be released, the cells in memory are exactly those that can be reached from the references that the program holds. -/
theorem C97_no_leak {S : Store F} (hr : S.Reached) (hp : S.pending = []) (a : Nat) : (∃ b ∈ S.blocks, b.addr = a) ↔ S.Live a := by
  have h := hr.inv
  constructor
  · rintro ⟨b, hb, rfl⟩
    have key : ∀ (k : Nat) (b : Block F), S.next - b.id = k → b ∈ S.blocks → S.Live b.addr := by
      intro k
      induction k using Nat.strong_induction_on with
      | _ k ih =>
        intro b hk hb
        have h1 := h.rc b hb
        have h2 := h.pos b hb
        have hm : b.addr ∈ S.refs := List.count_pos_iff.1 (by omega)
        simp only [Store.refs, hp, List.nil_append, List.mem_append, List.mem_flatMap] at hm
        rcases hm with hm | ⟨d, hd, hm⟩
        · exact .handle hm
        · have h3 := h.older d hd _ hm b hb rfl
          have h4 := h.bound d hd
          exact .child hd (ih _ (by omega) d rfl hd) hm
    exact key _ b rfl hb
  · intro hl
    induction hl with
    | handle hh => exact h.valid _ (List.mem_append_left _ hh)
    | child hb _ hc _ => exact h.valid _ (List.mem_append_right _ (List.mem_append_right _ (List.mem_flatMap.2 ⟨_, hb, hc⟩)))

theorem rcs_setRc {bs : List (Block F)} (hn : (bs.map Block.addr).Nodup) {b : Block F} (hb : b ∈ bs) (h1 : 1 ≤ b.rc) :
    ((setRc (· - 1) b.addr bs).map Block.rc).sum + 1 = (bs.map Block.rc).sum := by
  have hp := perm_filter hn hb
  have hp' : (setRc (· - 1) b.addr bs).Perm (setRc (· - 1) b.addr (b :: bs.filter fun c => c.addr != b.addr)) := hp.map _
  rw [(hp'.map Block.rc).sum_eq, (hp.map Block.rc).sum_eq]
  have hs : setRc (· - 1) b.addr (bs.filter fun c => c.addr != b.addr) = bs.filter fun c => c.addr != b.addr := by
    unfold setRc
    conv_rhs => rw [← List.map_id (bs.filter fun c => c.addr != b.addr)]
    apply List.map_congr_left
    intro c hc
    have : c.addr ≠ b.addr := by simpa using (List.mem_filter.1 hc).2
    rw [if_neg this]; rfl
  have : setRc (· - 1) b.addr (b :: bs.filter fun c => c.addr != b.addr) = { b with rc := b.rc - 1 } :: bs.filter fun c => c.addr != b.addr := by
    have : setRc (· - 1) b.addr (b :: bs.filter fun c => c.addr != b.addr) =
        { b with rc := b.rc - 1 } :: setRc (· - 1) b.addr (bs.filter fun c => c.addr != b.addr) := by
      simp [setRc]
    rw [this, hs]
  rw [this]
  simp only [List.map_cons, List.sum_cons]
  omega

/-- C97: dropping a reference always comes to an end: from every memory that can be reached, the destructor runs, for at most as many steps as there are references, until
nothing is left to be released; the references held by the program stay the same. -/
theorem C97_drop_ends {S : Store F} (hr : S.Reached) :
    ∃ k S', k ≤ (S.blocks.map Block.rc).sum ∧ S.run (List.replicate k .release) = .ok S' ∧ S'.pending = [] ∧ S'.handles = S.handles := by
  generalize hk : (S.blocks.map Block.rc).sum = t
  induction t using Nat.strong_induction_on generalizing S with
  | _ t ih =>
    cases hp : S.pending with
    | nil => exact ⟨0, S, Nat.zero_le _, rfl, hp, rfl⟩
    | cons a ps =>
      have h := hr.inv
      have hnd := C97_no_dangling hr .release
      have hstep : ∃ S1, S.exec .release = .ok S1 ∧ S1.handles = S.handles ∧ (S1.blocks.map Block.rc).sum + 1 = (S.blocks.map Block.rc).sum := by
        simp only [Store.exec, hp] at hnd ⊢
        cases hf : S.find a with
        | none => rw [hf] at hnd; exact absurd rfl hnd
        | some b =>
          obtain ⟨hb, rfl⟩ := find_some hf
          simp only
          split
          · rename_i hrc
            refine ⟨_, rfl, rfl, ?_⟩
            have h1 := ((perm_filter h.addrs hb).map Block.rc).sum_eq
            have h2 := h.pos b hb
            simp only [List.map_cons, List.sum_cons] at h1
            simp only
            omega
          · exact ⟨_, rfl, rfl, rcs_setRc h.addrs hb (h.pos b hb)⟩
      obtain ⟨S1, h1, h2, h3⟩ := hstep
      have hr1 : S1.Reached := by
        obtain ⟨ops, ho⟩ := hr
        refine ⟨ops ++ [.release], ?_⟩
        rw [run_append, ho]
        simp only [Except.bind, Store.run, h1]
        rfl
      obtain ⟨k, S', hk', hrun, hp', hh'⟩ := ih _ (by omega) hr1 rfl
      refine ⟨k + 1, S', by omega, ?_, hp', hh'.trans h2⟩
      rw [List.replicate_succ, Store.run, h1]
      exact hrun

/-! ## Example -/

/-- `x` at 100, `5` at 7, `x * 5` at 50 (with a second handle for `x`); then the product is dropped, its cell and that of `5` are released, and `y` is created at 50. -/
def exMem : List (MemOp Q) := [.new (.var "x" .continuous) 100, .clone 100, .new (.const (some 5)) 7, .new (.mul 100 7) 50, .drop 50, .release, .release, .release,
  .new (.var "y" .continuous) 50]

/-- Non-vacuity: the address 50 is used twice, the handle of `x` is held all the time, and at the end `x` and `y` are what is in memory. -/
example : (∃ S, Store.start.run exMem = .ok S ∧ S.handles = [50, 100] ∧ S.pending = [] ∧ S.blocks.length = 2) ∧
    (∃ S, Store.start.run (exMem.take 2) = .ok S ∧ S.Holds 100 (exMem.drop 2) ∧ MemReads S 100 (.var 0 "x" .continuous)) ∧
    (∃ S, Store.start.run (exMem.take 4) = .ok S ∧ S.handles = [50, 100]) := by
  refine ⟨⟨_, rfl, rfl, rfl, rfl⟩, ⟨_, rfl, ?_, ?_⟩, ⟨_, rfl, rfl⟩⟩
  · simp [Store.Holds, exMem, Store.exec, Store.start, Cell.children, takeOut, Store.find, setRc, Store.nodeAt, Cell.isNode]
  · exact .mk ⟨100, 2, 0, .var "x" .continuous⟩ _ (by simp [setRc, Store.start]) rfl ⟨rfl, rfl⟩ rfl (by simp [Cell.children])

/-- `x` at 100, `5` at 7, the constraint `x <= 5` at 50, and its left-hand side is taken out of it; then the constraint is dropped and its cell and that of `5` are released. -/
def exMemC : List (MemOp Q) := [.new (.var "x" .continuous) 100, .new (.const (some 5)) 7, .new (.constr 100 .lessEqual 7 "c") 50, .arg 50 100, .drop 50, .release, .release,
  .release]

/-- Non-vacuity: the constraint is read at 50 while it is held, and at the end `x` is all that is left. -/
example : (∃ S, Store.start.run (exMemC.take 4) = .ok S ∧ S.handles = [100, 50] ∧
      MemReadsC S 50 ⟨2, .var 0 "x" .continuous, .lessEqual, .const 1 (some 5), "c"⟩) ∧
    (∃ S, Store.start.run exMemC = .ok S ∧ S.handles = [100] ∧ S.pending = [] ∧ S.blocks.map Block.addr = [100]) := by
  refine ⟨⟨_, rfl, rfl, ⟨50, 1, 2, .constr 100 .lessEqual 7 "c"⟩, ?_, rfl, rfl, 100, 7, rfl, ?_, ?_⟩, _, rfl, rfl, rfl, rfl⟩
  · simp [setRc, Store.start]
  · exact .mk ⟨100, 2, 0, .var "x" .continuous⟩ _ (by simp [setRc, Store.start]) rfl ⟨rfl, rfl⟩ rfl (by simp [Cell.children])
  · exact .mk ⟨7, 1, 1, .const (some 5)⟩ _ (by simp [setRc, Store.start]) rfl rfl rfl (by simp [Cell.children])

end Verif
