import Verif.Spec.Shape
import Verif.Proofs.Node

/-! # Coherence and shape invariants of expressions under the API -/

set_option linter.unusedSectionVars false
set_option linter.unusedSimpArgs false

namespace Verif

variable {F : Type}

/-- Which shape conditions are tracked. -/
inductive Level where
  | raw
  | api
  | noSelf
  deriving DecidableEq

/-- Local shape of a node.  `raw`: nothing but the arity of sums.  `api`: what the operators guarantee: no function node has
only constant arguments, and no divisor is the constant zero. `noSelf`: in addition no quotient of a node by itself. -/
def Shape [FloatOps F] (l : Level) : Node F → Prop
  | .const .. => True
  | .var .. => True
  | .add _ args => 2 ≤ args.length ∧ (l ≠ .raw → ∃ a ∈ args, a.isConstant = false)
  | .cos _ a => l ≠ .raw → a.isConstant = false
  | .sin _ a => l ≠ .raw → a.isConstant = false
  | .mul _ a b => l ≠ .raw → ¬ (a.isConstant = true ∧ b.isConstant = true)
  | .div _ a b => (l ≠ .raw → ¬ (a.isConstant = true ∧ b.isConstant = true) ∧ b.isConstVal zero = false) ∧
      (l = .noSelf → a.ptrEq b = false)

/-- The cells created so far. -/
abbrev Heap (F : Type) := Nat → Option (Node F)

def Heap.le (h h' : Heap F) : Prop := ∀ i y, h i = some y → h' i = some y

theorem Heap.le_refl (h : Heap F) : h.le h := fun _ _ h => h
theorem Heap.le_trans {h1 h2 h3 : Heap F} (a : h1.le h2) (b : h2.le h3) : h1.le h3 := fun i y h => b i y (a i y h)

/-- Cells are created in order of their numbers. -/
def HInv (h : Heap F) (n : Nat) : Prop := ∀ i, n ≤ i → h i = none

/-- Every node of the expression is the content of its cell, and has the right shape. -/
def Good [FloatOps F] (l : Level) (h : Heap F) (x : Node F) : Prop :=
  ∀ y, Occurs y x → h y.id = some y ∧ Shape l y

theorem Occurs.trans {x y z : Node F} (h1 : Occurs x y) (h2 : Occurs y z) : Occurs x z := by
  induction h2 with
  | refl => exact h1
  | arg ha _ ih => exact .arg ha ih

theorem occurs_iff {y x : Node F} : Occurs y x ↔ y = x ∨ ∃ a ∈ x.arguments, Occurs y a := by
  constructor
  · intro h
    cases h with
    | refl => exact .inl rfl
    | arg ha h => exact .inr ⟨_, ha, h⟩
  · rintro (rfl | ⟨a, ha, h⟩)
    · exact .refl _
    · exact .arg ha h

section
variable [FloatOps F] {l : Level}

theorem Good.mono {h h' : Heap F} {x : Node F} (hx : Good l h x) (hle : h.le h') : Good l h' x :=
  fun y hy => ⟨hle _ _ (hx y hy).1, (hx y hy).2⟩

theorem Good.arg {h : Heap F} {x a : Node F} (hx : Good l h x) (ha : a ∈ x.arguments) : Good l h a :=
  fun y hy => hx y (.arg ha hy)

theorem Good.sub {h : Heap F} {x a : Node F} (hx : Good l h x) (ha : Occurs a x) : Good l h a :=
  fun y hy => hx y (hy.trans ha)

theorem Good.cell {h : Heap F} {x : Node F} (hx : Good l h x) : h x.id = some x := (hx x (.refl x)).1

theorem Good.shape {h : Heap F} {x : Node F} (hx : Good l h x) : Shape l x := (hx x (.refl x)).2

theorem Good.lt {h : Heap F} {n : Nat} {x : Node F} (hx : Good l h x) (hn : HInv h n) : x.id < n := by
  by_contra hc
  have := hn x.id (by omega)
  rw [hx.cell] at this
  cases this

theorem Good.eq_of_id {h : Heap F} {x y : Node F} (hx : Good l h x) (hy : Good l h y) (hid : x.id = y.id) : x = y := by
  have := hx.cell
  rw [hid, hy.cell] at this
  cases this; rfl

theorem Good.ptrEq_iff {h : Heap F} {x y : Node F} (hx : Good l h x) (hy : Good l h y) : x.ptrEq y = true ↔ x = y := by
  constructor
  · intro he
    simp only [Node.ptrEq, Bool.and_eq_true, beq_iff_eq] at he
    exact hx.eq_of_id hy he.2
  · rintro rfl; simp [Node.ptrEq]

theorem Good.weaken {h : Heap F} {x : Node F} (hx : Good .noSelf h x) : Good .api h x := by
  intro y hy
  refine ⟨(hx y hy).1, ?_⟩
  have := (hx y hy).2
  cases y <;> simp_all [Shape]

theorem Good.strengthen {h : Heap F} {x : Node F} (hx : Good .api h x) (hs : NoSelfDiv x) : Good .noSelf h x := by
  intro y hy
  refine ⟨(hx y hy).1, ?_⟩
  have := (hx y hy).2
  cases y <;> simp_all [Shape]
  exact hs _ _ _ hy

/-- `Spec h n x Q`: started with the cells `h` and counter `n`, a normal result of `x` satisfies `Q` in a heap that only
adds cells. -/
def Spec {α : Type} (h : Heap F) (n : Nat) (x : M α) (Q : Heap F → Nat → α → Prop) : Prop :=
  ∀ a m, x n = .ok (a, m) → ∃ h', h.le h' ∧ HInv h' m ∧ n ≤ m ∧ Q h' m a

variable {α β : Type} {h : Heap F} {n : Nat}

theorem Spec.pure {a : α} {Q : Heap F → Nat → α → Prop} (hn : HInv h n) (hq : Q h n a) : Spec h n (M.pure a) Q := by
  intro b m hb
  rw [M.pure_ok] at hb
  obtain ⟨rfl, rfl⟩ := hb
  exact ⟨h, h.le_refl, hn, Nat.le_refl _, hq⟩

theorem Spec.bind {x : M α} {f : α → M β} {Q : Heap F → Nat → α → Prop} {Q' : Heap F → Nat → β → Prop}
    (hx : Spec h n x Q)
    (hf : ∀ h' m a, h.le h' → HInv h' m → n ≤ m → Q h' m a → Spec h' m (f a) Q') : Spec h n (M.bind x f) Q' := by
  intro b m hb
  rw [M.bind_ok] at hb
  obtain ⟨a, k, ha, hb⟩ := hb
  obtain ⟨h1, hle1, hn1, hm1, hq⟩ := hx a k ha
  obtain ⟨h2, hle2, hn2, hm2, hq'⟩ := hf h1 k a hle1 hn1 hm1 hq b m hb
  exact ⟨h2, Heap.le_trans hle1 hle2, hn2, by omega, hq'⟩

theorem Spec.weaken {x : M α} {Q Q' : Heap F → Nat → α → Prop} (hx : Spec h n x Q)
    (hq : ∀ h' m a, h.le h' → HInv h' m → Q h' m a → Q' h' m a) : Spec h n x Q' := by
  intro a m ha
  obtain ⟨h', hle, hn, hm, hQ⟩ := hx a m ha
  exact ⟨h', hle, hn, hm, hq _ _ _ hle hn hQ⟩

theorem Spec.and {x : M α} {Q : Heap F → Nat → α → Prop} {P : α → Prop} (hx : Spec h n x Q)
    (hp : ∀ a m, x n = .ok (a, m) → P a) : Spec h n x (fun h' m a => Q h' m a ∧ P a) := by
  intro a m ha
  obtain ⟨h', hle, hn, hm, hQ⟩ := hx a m ha
  exact ⟨h', hle, hn, hm, hQ, hp a m ha⟩

theorem Spec.panic {e : Panic} {Q : Heap F → Nat → α → Prop} : Spec h n (M.panic e) Q := by
  intro a m ha; simp [M.panic_ok] at ha

theorem Spec.fresh (hn : HInv h n) : Spec h n M.fresh (fun _ _ _ => True) := by
  intro a m ha
  rw [M.fresh_ok] at ha
  exact ⟨h, h.le_refl, fun i hi => hn i (by omega), by omega, trivial⟩

theorem Spec.iter {H : HashOrder} {as : List α} (hn : HInv h n) :
    Spec h n (H.iter as) (fun _ _ bs => bs.Perm as) := by
  intro a m ha
  have hp := HashOrder.iter_perm ha
  rw [HashOrder.iter_ok] at ha
  exact ⟨h, h.le_refl, fun i hi => hn i (by omega), by omega, hp⟩

/-- Creating one cell. -/
theorem Spec.new {mk : Nat → Node F} {x : M (Node F)} (hn : HInv h n) (hx : x n = .ok (mk n, n + 1))
    (hid : (mk n).id = n) (hs : Shape l (mk n)) (hargs : ∀ a ∈ (mk n).arguments, Good l h a) :
    Spec h n x (fun h' m e => Good l h' e ∧ e = mk n ∧ m = n + 1) := by
  intro e m he
  rw [hx] at he
  cases he
  have hle : Heap.le h (fun i => if i = n then some (mk n) else h i) := by
    intro i y hy
    by_cases hi : i = n
    · subst hi; rw [hn i (Nat.le_refl _)] at hy; cases hy
    · simp [hi, hy]
  refine ⟨_, hle, ?_, by omega, ?_, rfl, rfl⟩
  · intro i hi
    have : i ≠ n := by omega
    simp [this]
    exact hn i (by omega)
  · intro y hy
    rw [occurs_iff] at hy
    rcases hy with rfl | ⟨a, ha, hy⟩
    · exact ⟨by simp [hid], hs⟩
    · exact (hargs a ha).mono hle y hy

theorem spec_newConst {v : F} (hn : HInv h n) :
    Spec h n (newConst v) (fun h' m e => Good l h' e ∧ e = .const n v ∧ m = n + 1) :=
  Spec.new (mk := fun n => .const n v) hn rfl rfl trivial (by simp [Node.arguments])

theorem spec_newVar {s : String} {k : VarKind} (hn : HInv h n) :
    Spec h n (newVar s k) (fun h' m e => Good l h' e ∧ e = .var n s k ∧ m = n + 1) :=
  Spec.new (mk := fun n => .var n s k) hn rfl rfl trivial (by simp [Node.arguments])

theorem spec_newMul {a b : Node F} (hn : HInv h n) (ha : Good l h a) (hb : Good l h b)
    (hs : l ≠ .raw → ¬ (a.isConstant = true ∧ b.isConstant = true)) :
    Spec h n (newMul a b) (fun h' m e => Good l h' e ∧ e = .mul n a b ∧ m = n + 1) :=
  Spec.new (mk := fun n => .mul n a b) hn rfl rfl hs (by simp [Node.arguments, ha, hb])

theorem spec_newDiv {a b : Node F} (hn : HInv h n) (ha : Good l h a) (hb : Good l h b)
    (hs : l ≠ .raw → ¬ (a.isConstant = true ∧ b.isConstant = true) ∧ b.isConstVal zero = false)
    (hs' : l = .noSelf → a.ptrEq b = false) :
    Spec h n (newDiv a b) (fun h' m e => Good l h' e ∧ e = .div n a b ∧ m = n + 1) :=
  Spec.new (mk := fun n => .div n a b) hn rfl rfl ⟨hs, hs'⟩ (by simp [Node.arguments, ha, hb])

theorem spec_newCos {a : Node F} (hn : HInv h n) (ha : Good l h a) (hs : l ≠ .raw → a.isConstant = false) :
    Spec h n (newCos a) (fun h' m e => Good l h' e ∧ e = .cos n a ∧ m = n + 1) :=
  Spec.new (mk := fun n => .cos n a) hn rfl rfl hs (by simp [Node.arguments, ha])

theorem spec_newSin {a : Node F} (hn : HInv h n) (ha : Good l h a) (hs : l ≠ .raw → a.isConstant = false) :
    Spec h n (newSin a) (fun h' m e => Good l h' e ∧ e = .sin n a ∧ m = n + 1) :=
  Spec.new (mk := fun n => .sin n a) hn rfl rfl hs (by simp [Node.arguments, ha])

theorem spec_newAdd {args : List (Node F)} (hn : HInv h n) (ha : ∀ a ∈ args, Good l h a)
    (hs : l ≠ .raw → ∃ a ∈ args, a.isConstant = false) :
    Spec h n (newAdd args) (fun h' m e => Good l h' e ∧ e = .add n args ∧ m = n + 1) := by
  by_cases h2 : 2 ≤ args.length
  · exact Spec.new (mk := fun n => .add n args) hn (by simp [newAdd_eq, h2]) rfl ⟨h2, hs⟩ (by simpa [Node.arguments] using ha)
  · intro e m he
    rw [newAdd_ok] at he
    exact absurd he.1 h2

/-! ### Addition -/

theorem gatherArgs_mem {acc : F × List (Node F)} {xs : List (Node F)} :
    ∀ a ∈ (gatherArgs acc xs).2, a ∈ acc.2 ∨ (a ∈ xs ∧ a.isConstant = false) := by
  induction xs generalizing acc with
  | nil => intro a ha; exact .inl (by simpa [gatherArgs] using ha)
  | cons x xs ih =>
    intro a ha
    by_cases hx : ∃ i v, x = .const i v
    · obtain ⟨i, v, rfl⟩ := hx
      rcases ih a (by simpa [gatherArgs] using ha) with h | h
      · exact .inl h
      · exact .inr ⟨by simp [h.1], h.2⟩
    · have hg : gatherArgs acc (x :: xs) = gatherArgs (acc.1, acc.2 ++ [x]) xs := by
        cases x <;> simp [gatherArgs] at hx ⊢
      rw [hg] at ha
      rcases ih a ha with h | h
      · simp only [List.mem_append, List.mem_singleton] at h
        rcases h with h | rfl
        · exact .inl h
        · refine .inr ⟨by simp, ?_⟩
          cases a <;> simp_all [Node.isConstant]
      · exact .inr ⟨by simp [h.1], h.2⟩

theorem gather_mem {acc : F × List (Node F)} {x : Node F} :
    ∀ a ∈ (gather acc x).2, a ∈ acc.2 ∨ (a.isConstant = false ∧ (a = x ∨ a ∈ x.arguments)) := by
  intro a ha
  cases x
  case const i v => exact .inl (by simpa [gather] using ha)
  case add i xs =>
    rcases gatherArgs_mem a (by simpa [gather] using ha) with h | h
    · exact .inl h
    · exact .inr ⟨h.2, .inr (by simpa [Node.arguments] using h.1)⟩
  all_goals
    simp only [gather, List.mem_append, List.mem_singleton] at ha
    rcases ha with ha | rfl
    · exact .inl ha
    · exact .inr ⟨rfl, .inl rfl⟩

theorem spec_finishAdd {acc : F × List (Node F)} (hn : HInv h n)
    (ha : ∀ a ∈ acc.2, Good l h a ∧ a.isConstant = false) :
    Spec h n (finishAdd acc) (fun h' _ e => Good l h' e) := by
  unfold finishAdd
  split
  · exact (spec_newConst hn).weaken fun _ _ _ _ _ hq => hq.1
  · rename_i he
    have hne : ∃ a ∈ acc.2, a.isConstant = false := by
      cases hl : acc.2 with
      | nil => simp [hl] at he
      | cons a t => exact ⟨a, by simp, (ha a (by simp [hl])).2⟩
    split
    · refine (spec_newConst (l := l) hn).bind fun h' m k hle hm _ hk => ?_
      refine (spec_newAdd hm (args := acc.2 ++ [k]) ?_ ?_).weaken fun _ _ _ _ _ hq => hq.1
      · intro a ha'
        simp only [List.mem_append, List.mem_singleton] at ha'
        rcases ha' with ha' | rfl
        · exact (ha a ha').1.mono hle
        · exact hk.1
      · intro _
        obtain ⟨a, h1, h2⟩ := hne
        exact ⟨a, by simp [h1], h2⟩
    · exact (spec_newAdd hn (fun a h => (ha a h).1) (fun _ => hne)).weaken fun _ _ _ _ _ hq => hq.1

theorem gather2_good {a b : Node F} (ha : Good l h a) (hb : Good l h b) :
    ∀ x ∈ (gather (gather ((zero : F), []) a) b).2, Good l h x ∧ x.isConstant = false := by
  intro x hx
  rcases gather_mem x hx with hx | ⟨hc, rfl | hx⟩
  · rcases gather_mem x hx with hx | ⟨hc, rfl | hx⟩
    · simp at hx
    · exact ⟨ha, hc⟩
    · exact ⟨ha.arg hx, hc⟩
  · exact ⟨hb, hc⟩
  · exact ⟨hb.arg hx, hc⟩

theorem spec_addN {a b : Node F} (hn : HInv h n) (ha : Good l h a) (hb : Good l h b) :
    Spec h n (addN a b) (fun h' _ e => Good l h' e) := by
  unfold addN
  split
  · exact Spec.pure hn hb
  · split
    · exact Spec.pure hn ha
    · exact spec_finishAdd hn (gather2_good ha hb)

theorem spec_addS {a : Node F} {c : F} (hn : HInv h n) (ha : Good l h a) :
    Spec h n (addS a c) (fun h' _ e => Good l h' e) := by
  unfold addS
  split
  · exact Spec.pure hn ha
  · refine (spec_newConst (l := l) hn).bind fun h' m k hle hm _ hk => ?_
    exact spec_finishAdd hm (gather2_good (ha.mono hle) hk.1)

theorem spec_sAdd {a : Node F} {c : F} (hn : HInv h n) (ha : Good l h a) :
    Spec h n (sAdd c a) (fun h' _ e => Good l h' e) := by
  unfold sAdd
  split
  · exact Spec.pure hn ha
  · refine (spec_newConst (l := l) hn).bind fun h' m k hle hm _ hk => ?_
    exact spec_finishAdd hm (gather2_good hk.1 (ha.mono hle))

/-! ### Multiplication -/

/-- Mapping an operator over a list of good nodes. -/
theorem spec_mapL {f : Node F → M (Node F)} {P : Node F → Node F → Prop} {as : List (Node F)} (hn : HInv h n)
    (ha : ∀ a ∈ as, Good l h a)
    (hf : ∀ a ∈ as, ∀ h' m, h.le h' → HInv h' m → Good l h' a → Spec h' m (f a) (fun h'' _ e => Good l h'' e ∧ P a e)) :
    Spec h n (M.mapL f as) (fun h' _ bs => (∀ b ∈ bs, Good l h' b) ∧ List.Forall₂ P as bs) := by
  induction as generalizing h n with
  | nil => exact Spec.pure hn ⟨by simp, .nil⟩
  | cons a as ih =>
    simp only [M.mapL]
    refine (hf a (by simp) h n h.le_refl hn (ha a (by simp))).bind fun h1 m1 b hle1 hn1 _ hb => ?_
    refine (ih hn1 (fun x hx => (ha x (by simp [hx])).mono hle1) ?_).bind fun h2 m2 bs hle2 hn2 _ hbs => ?_
    · intro x hx h' m hle hm hg
      exact hf x (by simp [hx]) h' m (Heap.le_trans hle1 hle) hm hg
    · refine Spec.pure hn2 ⟨?_, .cons hb.2 hbs.2⟩
      intro y hy
      simp only [List.mem_cons] at hy
      rcases hy with rfl | hy
      · exact hb.1.mono hle2
      · exact hbs.1 y hy

theorem exists_nonconst_of_forall₂ {as bs : List (Node F)}
    (hp : List.Forall₂ (fun a b : Node F => a.isConstant = false → b.isConstant = false) as bs)
    (ha : ∃ a ∈ as, a.isConstant = false) : ∃ b ∈ bs, b.isConstant = false := by
  induction hp with
  | nil => simp at ha
  | cons h _ ih =>
    obtain ⟨a, ha, hc⟩ := ha
    simp only [List.mem_cons] at ha
    rcases ha with rfl | ha
    · exact ⟨_, by simp, h hc⟩
    · obtain ⟨b, hb, hc⟩ := ih ⟨a, ha, hc⟩
      exact ⟨b, by simp [hb], hc⟩

/-- Distribution over the arguments of a sum. -/
theorem spec_distribute {f : Node F → M (Node F)} {i : Nat} {as : List (Node F)} (hn : HInv h n)
    (ha : Good l h (.add i as))
    (hf : ∀ a ∈ as, ∀ h' m, HInv h' m → Good l h' a →
      Spec h' m (f a) (fun h'' _ e => Good l h'' e ∧ (a.isConstant = false → e.isConstant = false))) :
    Spec h n (M.bind (M.mapL f as) newAdd) (fun h' _ e => Good l h' e ∧ e.isConstant = false) := by
  refine (spec_mapL (P := fun a b => a.isConstant = false → b.isConstant = false) hn
    (fun a h => ha.arg (by simpa [Node.arguments] using h)) (fun a h h' m _ hm hg => hf a h h' m hm hg)).bind
    fun h' m bs hle hm _ hbs => ?_
  refine (spec_newAdd hm hbs.1 ?_).weaken fun _ _ e _ _ hq => ⟨hq.1, ?_⟩
  · intro hl
    exact exists_nonconst_of_forall₂ hbs.2 (ha.shape.2 hl)
  · rw [hq.2.1]; rfl

theorem spec_sMul {c : F} (a : Node F) : ∀ {h : Heap F} {n : Nat}, HInv h n → Good l h a →
    Spec h n (sMul c a) (fun h' _ e => Good l h' e ∧ ((c ==. zero) = false → a.isConstant = false → e.isConstant = false)) := by
  have gen : ∀ {a : Node F} {h : Heap F} {n : Nat}, a.isConstant = false → HInv h n → Good l h a →
      Spec h n (if c ==. zero then newConst zero else if c ==. one then M.pure a
        else M.bind (newConst c) fun k => newMul k a)
        (fun h' _ e => Good l h' e ∧ ((c ==. zero) = false → a.isConstant = false → e.isConstant = false)) := by
    intro a h n hc hn ha
    split
    · rename_i hz
      refine (spec_newConst hn).weaken fun _ _ _ _ _ hq => ⟨hq.1, ?_⟩
      rw [hz]; simp
    · split
      · exact Spec.pure hn ⟨ha, fun _ h => h⟩
      · refine (spec_newConst (l := l) hn).bind fun h' m k hle hm _ hk => ?_
        refine (spec_newMul hm hk.1 (ha.mono hle) ?_).weaken fun _ _ _ _ _ hq => ⟨hq.1, ?_⟩
        · simp [hc]
        · rw [hq.2.1]; intros; rfl
  induction a using Node.ind with
  | const i v => intro h n hn ha; exact (spec_newConst hn).weaken fun _ _ _ _ _ hq => ⟨hq.1, by simp [Node.isConstant]⟩
  | add i args ih =>
    intro h n hn ha
    simp only [sMul]
    split
    · rename_i hz
      refine (spec_newConst hn).weaken fun _ _ _ _ _ hq => ⟨hq.1, ?_⟩
      rw [hz]; simp
    · rename_i hz
      split
      · exact Spec.pure hn ⟨ha, fun _ h => h⟩
      · rw [sMulL_eq_mapL]
        refine (spec_distribute hn ha fun a hm h' m hm' hg => (ih a hm hm' hg).weaken
          fun _ _ _ _ _ hq => ⟨hq.1, hq.2 (by simpa using hz)⟩).weaken fun _ _ _ _ _ hq => ⟨hq.1, fun _ _ => hq.2⟩
  | var i s k => exact gen rfl
  | cos i a ih => exact gen rfl
  | div i a b iha ihb => exact gen rfl
  | mul i a b iha ihb => exact gen rfl
  | sin i a ih => exact gen rfl

theorem spec_mulS {c : F} (a : Node F) : ∀ {h : Heap F} {n : Nat}, HInv h n → Good l h a →
    Spec h n (mulS c a) (fun h' _ e => Good l h' e ∧ ((c ==. zero) = false → a.isConstant = false → e.isConstant = false)) := by
  have gen : ∀ {a : Node F} {h : Heap F} {n : Nat}, a.isConstant = false → HInv h n → Good l h a →
      Spec h n (if c ==. zero then newConst zero else if c ==. one then M.pure a
        else M.bind (newConst c) fun k => newMul a k)
        (fun h' _ e => Good l h' e ∧ ((c ==. zero) = false → a.isConstant = false → e.isConstant = false)) := by
    intro a h n hc hn ha
    split
    · rename_i hz
      refine (spec_newConst hn).weaken fun _ _ _ _ _ hq => ⟨hq.1, ?_⟩
      rw [hz]; simp
    · split
      · exact Spec.pure hn ⟨ha, fun _ h => h⟩
      · refine (spec_newConst (l := l) hn).bind fun h' m k hle hm _ hk => ?_
        refine (spec_newMul hm (ha.mono hle) hk.1 ?_).weaken fun _ _ _ _ _ hq => ⟨hq.1, ?_⟩
        · simp [hc]
        · rw [hq.2.1]; intros; rfl
  induction a using Node.ind with
  | const i v => intro h n hn ha; exact (spec_newConst hn).weaken fun _ _ _ _ _ hq => ⟨hq.1, by simp [Node.isConstant]⟩
  | add i args ih =>
    intro h n hn ha
    simp only [mulS]
    split
    · rename_i hz
      refine (spec_newConst hn).weaken fun _ _ _ _ _ hq => ⟨hq.1, ?_⟩
      rw [hz]; simp
    · rename_i hz
      split
      · exact Spec.pure hn ⟨ha, fun _ h => h⟩
      · rw [mulSL_eq_mapL]
        refine (spec_distribute hn ha fun a hm h' m hm' hg => (ih a hm hm' hg).weaken
          fun _ _ _ _ _ hq => ⟨hq.1, hq.2 (by simpa using hz)⟩).weaken fun _ _ _ _ _ hq => ⟨hq.1, fun _ _ => hq.2⟩
  | var i s k => exact gen rfl
  | cos i a ih => exact gen rfl
  | div i a b iha ihb => exact gen rfl
  | mul i a b iha ihb => exact gen rfl
  | sin i a ih => exact gen rfl

theorem spec_mulCL {i : Nat} {c : F} (a : Node F) : ∀ {h : Heap F} {n : Nat}, HInv h n → Good l h (.const i c) → Good l h a →
    Spec h n (mulCL i c a) (fun h' _ e => Good l h' e ∧ ((c ==. zero) = false → a.isConstant = false → e.isConstant = false)) := by
  have gen : ∀ {a : Node F} {h : Heap F} {n : Nat}, a.isConstant = false → HInv h n → Good l h (.const i c) → Good l h a →
      Spec h n (if c ==. zero then newConst zero else if c ==. one then M.pure a
        else newMul (.const i c) a)
        (fun h' _ e => Good l h' e ∧ ((c ==. zero) = false → a.isConstant = false → e.isConstant = false)) := by
    intro a h n hc hn hk ha
    split
    · rename_i hz
      refine (spec_newConst hn).weaken fun _ _ _ _ _ hq => ⟨hq.1, ?_⟩
      rw [hz]; simp
    · split
      · exact Spec.pure hn ⟨ha, fun _ h => h⟩
      · refine (spec_newMul hn hk ha ?_).weaken fun _ _ _ _ _ hq => ⟨hq.1, ?_⟩
        · simp [hc]
        · rw [hq.2.1]; intros; rfl
  induction a using Node.ind with
  | const j v =>
    intro h n hn hk ha
    simp only [mulCL]
    split
    · exact (spec_newConst hn).weaken fun _ _ _ _ _ hq => ⟨hq.1, by simp [Node.isConstant]⟩
    · split
      · exact Spec.pure hn ⟨ha, by simp [Node.isConstant]⟩
      · split
        · exact Spec.pure hn ⟨hk, by simp [Node.isConstant]⟩
        · exact (spec_newConst hn).weaken fun _ _ _ _ _ hq => ⟨hq.1, by simp [Node.isConstant]⟩
  | add j args ih =>
    intro h n hn hk ha
    simp only [mulCL]
    split
    · rename_i hz
      refine (spec_newConst hn).weaken fun _ _ _ _ _ hq => ⟨hq.1, ?_⟩
      rw [hz]; simp
    · rename_i hz
      split
      · exact Spec.pure hn ⟨ha, fun _ h => h⟩
      · rw [mulCLL_eq_mapL]
        refine (spec_mapL (P := fun a b => a.isConstant = false → b.isConstant = false) hn
          (fun a h => ha.arg (by simpa [Node.arguments] using h)) (fun a hm h' m hle hm' hg =>
            (ih a hm hm' (hk.mono hle) hg).weaken fun _ _ _ _ _ hq => ⟨hq.1, hq.2 (by simpa using hz)⟩)).bind
          fun h' m bs hle hm _ hbs => ?_
        refine (spec_newAdd hm hbs.1 ?_).weaken fun _ _ e _ _ hq => ⟨hq.1, fun _ _ => ?_⟩
        · intro hl
          exact exists_nonconst_of_forall₂ hbs.2 (ha.shape.2 hl)
        · rw [hq.2.1]; rfl
  | var i s k => exact gen rfl
  | cos i a ih => exact gen rfl
  | div i a b iha ihb => exact gen rfl
  | mul i a b iha ihb => exact gen rfl
  | sin i a ih => exact gen rfl

theorem spec_mulCR {i : Nat} {c : F} (a : Node F) : ∀ {h : Heap F} {n : Nat}, HInv h n → Good l h (.const i c) → Good l h a →
    Spec h n (mulCR i c a) (fun h' _ e => Good l h' e ∧ ((c ==. zero) = false → a.isConstant = false → e.isConstant = false)) := by
  have gen : ∀ {a : Node F} {h : Heap F} {n : Nat}, a.isConstant = false → HInv h n → Good l h (.const i c) → Good l h a →
      Spec h n (if c ==. zero then newConst zero else if c ==. one then M.pure a
        else newMul a (.const i c))
        (fun h' _ e => Good l h' e ∧ ((c ==. zero) = false → a.isConstant = false → e.isConstant = false)) := by
    intro a h n hc hn hk ha
    split
    · rename_i hz
      refine (spec_newConst hn).weaken fun _ _ _ _ _ hq => ⟨hq.1, ?_⟩
      rw [hz]; simp
    · split
      · exact Spec.pure hn ⟨ha, fun _ h => h⟩
      · refine (spec_newMul hn ha hk ?_).weaken fun _ _ _ _ _ hq => ⟨hq.1, ?_⟩
        · simp [hc]
        · rw [hq.2.1]; intros; rfl
  induction a using Node.ind with
  | const j v =>
    intro h n hn hk ha
    simp only [mulCR]
    split
    · exact (spec_newConst hn).weaken fun _ _ _ _ _ hq => ⟨hq.1, by simp [Node.isConstant]⟩
    · split
      · exact Spec.pure hn ⟨hk, by simp [Node.isConstant]⟩
      · split
        · exact Spec.pure hn ⟨ha, by simp [Node.isConstant]⟩
        · exact (spec_newConst hn).weaken fun _ _ _ _ _ hq => ⟨hq.1, by simp [Node.isConstant]⟩
  | add j args ih =>
    intro h n hn hk ha
    simp only [mulCR]
    split
    · rename_i hz
      refine (spec_newConst hn).weaken fun _ _ _ _ _ hq => ⟨hq.1, ?_⟩
      rw [hz]; simp
    · rename_i hz
      split
      · exact Spec.pure hn ⟨ha, fun _ h => h⟩
      · rw [mulCRL_eq_mapL]
        refine (spec_mapL (P := fun a b => a.isConstant = false → b.isConstant = false) hn
          (fun a h => ha.arg (by simpa [Node.arguments] using h)) (fun a hm h' m hle hm' hg =>
            (ih a hm hm' (hk.mono hle) hg).weaken fun _ _ _ _ _ hq => ⟨hq.1, hq.2 (by simpa using hz)⟩)).bind
          fun h' m bs hle hm _ hbs => ?_
        refine (spec_newAdd hm hbs.1 ?_).weaken fun _ _ e _ _ hq => ⟨hq.1, fun _ _ => ?_⟩
        · intro hl
          exact exists_nonconst_of_forall₂ hbs.2 (ha.shape.2 hl)
        · rw [hq.2.1]; rfl
  | var i s k => exact gen rfl
  | cos i a ih => exact gen rfl
  | div i a b iha ihb => exact gen rfl
  | mul i a b iha ihb => exact gen rfl
  | sin i a ih => exact gen rfl

theorem mulN_cases (a b : Node F) :
    (∃ i c, a = .const i c ∧ mulN a b = mulCL i c b) ∨ (∃ j c, b = .const j c ∧ mulN a b = mulCR j c a) ∨
      (a.isConstant = false ∧ b.isConstant = false ∧ mulN a b = newMul a b) := by
  cases a <;> cases b <;> simp [mulN, Node.isConstant]

theorem mulN_isConstant {a b e : Node F} {n m : Nat} (ha : a.isConstant = true) (hb : b.isConstant = true)
    (h : mulN a b n = .ok (e, m)) : e.isConstant = true := by
  cases a <;> simp [Node.isConstant] at ha
  cases b <;> simp [Node.isConstant] at hb
  simp only [mulN, mulCL] at h
  split at h
  · rw [newConst_ok] at h; rw [h.1]; rfl
  · split at h
    · rw [M.pure_ok] at h; rw [h.1]; rfl
    · split at h
      · rw [M.pure_ok] at h; rw [h.1]; rfl
      · rw [newConst_ok] at h; rw [h.1]; rfl

theorem spec_mulN {a b : Node F} (hn : HInv h n) (ha : Good l h a) (hb : Good l h b) :
    Spec h n (mulN a b) (fun h' _ e => Good l h' e) := by
  rcases mulN_cases a b with ⟨i, c, rfl, he⟩ | ⟨j, c, rfl, he⟩ | ⟨hac, hbc, he⟩ <;> rw [he]
  · exact (spec_mulCL b hn ha hb).weaken fun _ _ _ _ _ hq => hq.1
  · exact (spec_mulCR a hn hb ha).weaken fun _ _ _ _ _ hq => hq.1
  · exact (spec_newMul hn ha hb (by simp [hac])).weaken fun _ _ _ _ _ hq => hq.1

theorem negN_cases (a : Node F) : (∃ i v, a = .const i v ∧ negN a = newConst (negOne *. v)) ∨
    (a.isConstant = false ∧ negN a = sMul negOne a) := by
  cases a <;> simp [negN, Node.isConstant]

theorem spec_negN {a : Node F} (hn : HInv h n) (ha : Good l h a) :
    Spec h n (negN a) (fun h' _ e => Good l h' e) := by
  rcases negN_cases a with ⟨i, v, rfl, he⟩ | ⟨hc, he⟩ <;> rw [he]
  · exact (spec_newConst hn).weaken fun _ _ _ _ _ hq => hq.1
  · exact (spec_sMul a hn ha).weaken fun _ _ _ _ _ hq => hq.1

theorem spec_subN {a b : Node F} (hn : HInv h n) (ha : Good l h a) (hb : Good l h b) :
    Spec h n (subN a b) (fun h' _ e => Good l h' e) :=
  (spec_sMul b hn hb).bind fun _ _ _ hle hm _ hk => spec_addN hm (ha.mono hle) hk.1

theorem spec_subS {a : Node F} {c : F} (hn : HInv h n) (ha : Good l h a) :
    Spec h n (subS a c) (fun h' _ e => Good l h' e) :=
  (spec_newConst (l := l) hn).bind fun _ _ k hle hm _ hk =>
    (spec_sMul k hm hk.1).bind fun _ _ _ hle' hm' _ hk' => spec_addN hm' ((ha.mono hle).mono hle') hk'.1

theorem spec_sSub {b : Node F} {c : F} (hn : HInv h n) (hb : Good l h b) :
    Spec h n (sSub c b) (fun h' _ e => Good l h' e) :=
  (spec_newConst (l := l) hn).bind fun _ _ _ hle hm _ hk =>
    (spec_sMul b hm (hb.mono hle)).bind fun _ _ _ hle' hm' _ hk' => spec_addN hm' (hk.1.mono hle') hk'.1

theorem ptrEq_false_of_tag {a b : Node F} (h : a.tag ≠ b.tag) : a.ptrEq b = false := by
  simp [Node.ptrEq, h]

theorem ptrEq_false_of_const {a b : Node F} (h : a.isConstant ≠ b.isConstant) : a.ptrEq b = false := by
  apply ptrEq_false_of_tag
  cases a <;> cases b <;> simp_all [Node.isConstant, Node.tag]

theorem spec_divN {a b : Node F} (hn : HInv h n) (ha : Good l h a) (hb : Good l h b)
    (hs : l = .noSelf → ¬ (a.isConstant = true ∧ b.isConstant = true) → a.ptrEq b = false) :
    Spec h n (divN a b) (fun h' _ e => Good l h' e) := by
  unfold divN
  split
  · exact Spec.panic
  · rename_i hz
    split
    · exact Spec.pure hn ha
    · split
      · exact (spec_newConst hn).weaken fun _ _ _ _ _ hq => hq.1
      · split
        · exact (spec_newConst hn).weaken fun _ _ _ _ _ hq => hq.1
        · rename_i hc
          exact (spec_newDiv hn ha hb (fun _ => ⟨by simpa using hc, by simpa using hz⟩) (fun hl => hs hl (by simpa using hc))).weaken fun _ _ _ _ _ hq => hq.1

theorem spec_divS {a : Node F} {c : F} (hn : HInv h n) (ha : Good l h a) :
    Spec h n (divS a c) (fun h' _ e => Good l h' e) := by
  unfold divS
  split
  · exact Spec.panic
  · rename_i hz
    split
    · exact Spec.pure hn ha
    · split
      · exact (spec_newConst hn).weaken fun _ _ _ _ _ hq => hq.1
      · split
        · exact (spec_newConst hn).weaken fun _ _ _ _ _ hq => hq.1
        · rename_i hc
          refine (spec_newConst (l := l) hn).bind fun _ _ k hle hm _ hk => ?_
          refine (spec_newDiv hm (ha.mono hle) hk.1 (fun _ => ⟨by simp [hc], ?_⟩) (fun _ => ?_)).weaken fun _ _ _ _ _ hq => hq.1
          · rw [hk.2.1]; simpa [Node.isConstVal] using hz
          · apply ptrEq_false_of_const; rw [hk.2.1]; simpa [Node.isConstant] using hc

theorem spec_sDiv {b : Node F} {c : F} (hn : HInv h n) (hb : Good l h b) :
    Spec h n (sDiv c b) (fun h' _ e => Good l h' e) := by
  unfold sDiv
  split
  · exact Spec.panic
  · rename_i hz
    split
    · exact (spec_newConst hn).weaken fun _ _ _ _ _ hq => hq.1
    · split
      · exact (spec_newConst hn).weaken fun _ _ _ _ _ hq => hq.1
      · split
        · exact (spec_newConst hn).weaken fun _ _ _ _ _ hq => hq.1
        · rename_i hc
          refine (spec_newConst (l := l) hn).bind fun _ _ k hle hm _ hk => ?_
          refine (spec_newDiv hm hk.1 (hb.mono hle) (fun _ => ⟨by simp [hc], by simpa using hz⟩) (fun _ => ?_)).weaken
            fun _ _ _ _ _ hq => hq.1
          apply ptrEq_false_of_const; rw [hk.2.1]; simp only [Node.isConstant]; intro h0; exact hc h0.symm

theorem spec_cosN {a : Node F} (hn : HInv h n) (ha : Good l h a) :
    Spec h n (cosN a) (fun h' _ e => Good l h' e) := by
  cases a
  case const i v => exact (spec_newConst hn).weaken fun _ _ _ _ _ hq => hq.1
  all_goals exact (spec_newCos hn ha (fun _ => rfl)).weaken fun _ _ _ _ _ hq => hq.1

theorem spec_sinN {a : Node F} (hn : HInv h n) (ha : Good l h a) :
    Spec h n (sinN a) (fun h' _ e => Good l h' e) := by
  cases a
  case const i v => exact (spec_newConst hn).weaken fun _ _ _ _ _ hq => hq.1
  all_goals exact (spec_newSin hn ha (fun _ => rfl)).weaken fun _ _ _ _ _ hq => hq.1

theorem spec_partialN {a b : Node F} (hn : HInv h n) (ha : Good l h a) :
    Spec h n (partialN a b) (fun h' _ e => Good l h' e) := by
  have hz : ∀ {v : F}, Spec h n (newConst v) (fun h' _ e => Good l h' e) :=
    (spec_newConst hn).weaken fun _ _ _ _ _ hq => hq.1
  cases a
  case const i v => exact hz
  case var i s k => exact hz
  case add i args => exact hz
  case cos i a =>
    simp only [partialN]
    split
    · exact (spec_sinN hn (ha.arg (a := a) (by simp [Node.arguments]))).bind fun _ _ _ _ hm _ hk => spec_negN hm hk
    · exact hz
  case sin i a =>
    simp only [partialN]
    split
    · exact spec_cosN hn (ha.arg (a := a) (by simp [Node.arguments]))
    · exact hz
  case mul i a b =>
    simp only [partialN]
    split
    · exact Spec.pure hn (ha.arg (by simp [Node.arguments]))
    · split
      · exact Spec.pure hn (ha.arg (by simp [Node.arguments]))
      · exact hz
  case div i a b =>
    have hga : Good l h a := ha.arg (by simp [Node.arguments])
    have hgb : Good l h b := ha.arg (by simp [Node.arguments])
    simp only [partialN]
    split
    · exact spec_sDiv hn hgb
    · split
      · refine (spec_negN hn hga).bind fun h1 m1 na hle1 hn1 _ hna => ?_
        by_cases hbc : b.isConstant = true
        · refine ((spec_mulN hn1 (hgb.mono hle1) (hgb.mono hle1)).and fun bb m2 h => mulN_isConstant hbc hbc h).bind
            fun h2 m2 bb hle2 hn2 _ hbb => ?_
          refine spec_divN hn2 (hna.mono hle2) hbb.1 fun _ hcc => ?_
          apply ptrEq_false_of_const
          simpa [hbb.2] using hcc
        · rw [Bool.not_eq_true] at hbc
          have he : mulN b b = newMul b b := by
            rcases mulN_cases b b with ⟨i, c, rfl, he⟩ | ⟨j, c, rfl, he⟩ | ⟨_, _, he⟩
            · simp [Node.isConstant] at hbc
            · simp [Node.isConstant] at hbc
            · exact he
          rw [he]
          refine (spec_newMul hn1 (hgb.mono hle1) (hgb.mono hle1) (by simp [hbc])).bind fun h2 m2 bb hle2 hn2 _ hbb => ?_
          refine spec_divN hn2 (hna.mono hle2) hbb.1 fun _ _ => ?_
          have h1 := hna.lt hn1
          rw [hbb.2.1]
          simp only [Node.ptrEq, Bool.and_eq_false_iff, beq_eq_false_iff_ne]
          right
          show na.id ≠ m1
          omega
      · exact hz

end

end Verif
