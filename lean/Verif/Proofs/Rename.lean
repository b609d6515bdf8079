import Verif.Spec.Replay
import Verif.Proofs.Node
import Verif.Proofs.Panics
import Verif.Proofs.Sim

/-! # Addresses have no influence -/

set_option linter.unusedSectionVars false
set_option linter.unusedSimpArgs false

namespace Verif

variable {F : Type}

/-- The expression with other addresses. -/
def Node.ren (ρ : Nat → Nat) : Node F → Node F
  | .const i v => .const (ρ i) v
  | .var i s k => .var (ρ i) s k
  | .add i args => .add (ρ i) (rens ρ args)
  | .cos i a => .cos (ρ i) (a.ren ρ)
  | .div i a b => .div (ρ i) (a.ren ρ) (b.ren ρ)
  | .mul i a b => .mul (ρ i) (a.ren ρ) (b.ren ρ)
  | .sin i a => .sin (ρ i) (a.ren ρ)
where
  /-- on lists -/
  rens (ρ : Nat → Nat) : List (Node F) → List (Node F)
    | [] => []
    | a :: as => a.ren ρ :: rens ρ as

theorem rens_eq (ρ : Nat → Nat) (as : List (Node F)) : Node.ren.rens ρ as = as.map (Node.ren ρ) := by
  induction as with
  | nil => rfl
  | cons a as ih => simp [Node.ren.rens, ih]

section
variable {ρ : Nat → Nat}

@[simp] theorem ren_id (a : Node F) : (a.ren ρ).id = ρ a.id := by cases a <;> rfl
@[simp] theorem ren_tag (a : Node F) : (a.ren ρ).tag = a.tag := by cases a <;> rfl
@[simp] theorem ren_isConstant (a : Node F) : (a.ren ρ).isConstant = a.isConstant := by cases a <;> rfl
@[simp] theorem ren_isVar (a : Node F) : (a.ren ρ).isVar = a.isVar := by cases a <;> rfl
@[simp] theorem ren_name (a : Node F) : (a.ren ρ).name = a.name := by cases a <;> rfl
@[simp] theorem ren_isInteger (a : Node F) : (a.ren ρ).isInteger = a.isInteger := by
  cases a with
  | var i s k => cases k <;> rfl
  | _ => rfl
@[simp] theorem ren_arguments (a : Node F) : (a.ren ρ).arguments = a.arguments.map (Node.ren ρ) := by
  cases a <;> simp [Node.ren, Node.arguments, rens_eq]

theorem ren_ptrEq (hρ : Function.Injective ρ) (a b : Node F) : (a.ren ρ).ptrEq (b.ren ρ) = a.ptrEq b := by
  have : (ρ a.id == ρ b.id) = (a.id == b.id) := by
    rw [Bool.eq_iff_iff, beq_iff_eq, beq_iff_eq, hρ.eq_iff]
  simp only [Node.ptrEq, ren_tag, ren_id, this]

variable [FloatOps F]

@[simp] theorem ren_isConstVal (a : Node F) (v : F) : (a.ren ρ).isConstVal v = a.isConstVal v := by cases a <;> rfl

theorem ren_evaluate (σ : Env F) (a : Node F) : (a.ren ρ).evaluate σ = a.evaluate fun k => σ (ρ k) := by
  induction a using Node.ind with
  | const i v => rfl
  | var i s k => rfl
  | add i args ih =>
    simp only [Node.ren, rens_eq, Node.evaluate, sumFrom_eq_foldl, List.foldl_map]
    generalize (zero : F) = acc
    induction args generalizing acc with
    | nil => rfl
    | cons a as ih2 =>
      simp only [List.foldl_cons]
      rw [ih a (by simp), ih2 (fun b hb => ih b (by simp [hb]))]
  | cos i a ih => simp [Node.ren, Node.evaluate, ih]
  | sin i a ih => simp [Node.ren, Node.evaluate, ih]
  | mul i a b iha ihb => simp [Node.ren, Node.evaluate, iha, ihb]
  | div i a b iha ihb => simp [Node.ren, Node.evaluate, iha, ihb]

end

/-- The two runs are at corresponding points. -/
def Ag (ρ : Nat → Nat) (H H' : HashOrder) (n n' : Nat) : Prop :=
  ∀ j, ρ (n + j) = n' + j ∧ ∀ (α : Type) (l : List α), H'.order (n' + j) α l = H.order (n + j) α l

theorem Ag.zero {ρ : Nat → Nat} {H H' : HashOrder} {n n' : Nat} (h : Ag ρ H H' n n') : ρ n = n' := (h 0).1

theorem Ag.succ {ρ : Nat → Nat} {H H' : HashOrder} {n n' : Nat} (h : Ag ρ H H' n n') : Ag ρ H H' (n + 1) (n' + 1) := by
  intro j
  have := h (1 + j)
  rwa [← Nat.add_assoc, ← Nat.add_assoc] at this

/-- The second computation does the same as the first, with results changed by `f`. -/
def RenM {α β : Type} (ρ : Nat → Nat) (H H' : HashOrder) (x : M α) (y : M β) (f : α → β) : Prop :=
  ∀ n n', Ag ρ H H' n n' → match x n with
    | .ok (a, m) => ∃ m', y n' = .ok (f a, m') ∧ Ag ρ H H' m m'
    | .error p => y n' = .error p

section
variable {α β γ δ : Type} {ρ : Nat → Nat} {H H' : HashOrder}

theorem RenM.pure {a : α} {b : β} {f : α → β} (h : f a = b) : RenM ρ H H' (M.pure a) (M.pure b) f :=
  fun n n' hA => ⟨n', by rw [h]; rfl, hA⟩

theorem RenM.panic {p : Panic} {f : α → β} : RenM ρ H H' (M.panic p) (M.panic p) f := fun _ _ _ => rfl

theorem RenM.bind {x : M α} {y : M β} {f : α → β} {k : α → M γ} {k' : β → M δ} {g : γ → δ}
    (h : RenM ρ H H' x y f) (hk : ∀ a, RenM ρ H H' (k a) (k' (f a)) g) : RenM ρ H H' (M.bind x k) (M.bind y k') g := by
  intro n n' hA
  have h1 := h n n' hA
  unfold M.bind
  cases hx : x n with
  | error p => rw [hx] at h1; simp only at h1; simp only [h1]
  | ok a =>
    obtain ⟨a, m⟩ := a
    rw [hx] at h1
    obtain ⟨m', h1, h2⟩ := h1
    simp only [h1]
    exact hk a m m' h2

theorem RenM.fresh : RenM ρ H H' M.fresh M.fresh ρ := by
  intro n n' hA
  exact ⟨n' + 1, by rw [hA.zero]; rfl, hA.succ⟩

theorem RenM.iter (hN : H.Positional) {l : List α} {l' : List β} {f : α → β} (hl : l' = l.map f) : RenM ρ H H' (H.iter l) (H'.iter l') (List.map f) := by
  intro n n' hA
  subst hl
  refine ⟨n' + 1, ?_, hA.succ⟩
  have h1 := (hA 0).2 β (l.map f)
  simp only [Nat.add_zero] at h1
  show Except.ok (H'.order n' β (l.map f), n' + 1) = _
  rw [h1, hN]

theorem RenM.ofR {r : R α} {r' : R β} {f : α → β} (h : r' = r.map f) : RenM ρ H H' (M.ofR r) (M.ofR r') f := by
  intro n n' hA
  subst h
  cases r with
  | error p => rfl
  | ok a => exact ⟨n', rfl, hA⟩

theorem RenM.mapL {k : α → M γ} {k' : β → M δ} {f : α → β} {g : γ → δ} {as : List α} (hk : ∀ a ∈ as, RenM ρ H H' (k a) (k' (f a)) g) :
    RenM ρ H H' (M.mapL k as) (M.mapL k' (as.map f)) (List.map g) := by
  induction as with
  | nil => exact .pure rfl
  | cons a as ih =>
    simp only [M.mapL, List.map_cons]
    exact (hk a (by simp)).bind fun b => (ih fun a ha => hk a (by simp [ha])).bind fun bs => .pure rfl

theorem RenM.congr {x : M α} {y : M β} {f f' : α → β} (h : RenM ρ H H' x y f) (he : ∀ a, f a = f' a) : RenM ρ H H' x y f' := by
  rwa [← funext he]

end

/-! ### Expressions -/

section
variable [FloatOps F] {ρ : Nat → Nat} {H H' : HashOrder}

local notation "RN" => RenM ρ H H'

theorem ren_newConst (v : F) : RN (newConst v) (newConst v) (Node.ren ρ) := RenM.fresh.bind fun _ => .pure rfl
theorem ren_newVar (s : String) (k : VarKind) : RN (newVar (F := F) s k) (newVar s k) (Node.ren ρ) := RenM.fresh.bind fun _ => .pure rfl
theorem ren_newMul (a b : Node F) : RN (newMul a b) (newMul (a.ren ρ) (b.ren ρ)) (Node.ren ρ) := RenM.fresh.bind fun _ => .pure rfl
theorem ren_newDiv (a b : Node F) : RN (newDiv a b) (newDiv (a.ren ρ) (b.ren ρ)) (Node.ren ρ) := RenM.fresh.bind fun _ => .pure rfl
theorem ren_newCos (a : Node F) : RN (newCos a) (newCos (a.ren ρ)) (Node.ren ρ) := RenM.fresh.bind fun _ => .pure rfl
theorem ren_newSin (a : Node F) : RN (newSin a) (newSin (a.ren ρ)) (Node.ren ρ) := RenM.fresh.bind fun _ => .pure rfl
theorem ren_newAdd (as : List (Node F)) : RN (newAdd as) (newAdd (as.map (Node.ren ρ))) (Node.ren ρ) := by
  unfold newAdd
  rw [List.length_map]
  split
  · exact RenM.fresh.bind fun _ => .pure (by simp [Node.ren, rens_eq])
  · exact .panic

theorem ren_gatherArgs (acc : F × List (Node F)) (xs : List (Node F)) :
    gatherArgs (acc.1, acc.2.map (Node.ren ρ)) (xs.map (Node.ren ρ)) = ((gatherArgs acc xs).1, (gatherArgs acc xs).2.map (Node.ren ρ)) := by
  induction xs generalizing acc with
  | nil => simp [gatherArgs]
  | cons x xs ih =>
    obtain ⟨c, as⟩ := acc
    cases x with
    | const i v => simpa [gatherArgs, Node.ren] using ih (c +. v, as)
    | var i s k =>
      have := ih (c, as ++ [.var i s k])
      rw [List.map_append] at this
      exact this
    | add i a =>
      have := ih (c, as ++ [.add i a])
      rw [List.map_append] at this
      exact this
    | cos i a =>
      have := ih (c, as ++ [.cos i a])
      rw [List.map_append] at this
      exact this
    | sin i a =>
      have := ih (c, as ++ [.sin i a])
      rw [List.map_append] at this
      exact this
    | mul i a b =>
      have := ih (c, as ++ [.mul i a b])
      rw [List.map_append] at this
      exact this
    | div i a b =>
      have := ih (c, as ++ [.div i a b])
      rw [List.map_append] at this
      exact this

theorem ren_gather (acc : F × List (Node F)) (x : Node F) :
    gather (acc.1, acc.2.map (Node.ren ρ)) (x.ren ρ) = ((gather acc x).1, (gather acc x).2.map (Node.ren ρ)) := by
  cases x with
  | add i args => simpa [gather, Node.ren, rens_eq] using ren_gatherArgs acc args
  | _ => simp [gather, Node.ren]

theorem ren_finishAdd (acc : F × List (Node F)) : RN (finishAdd acc) (finishAdd (acc.1, acc.2.map (Node.ren ρ))) (Node.ren ρ) := by
  unfold finishAdd
  simp only [List.isEmpty_map]
  split
  · exact ren_newConst _
  · split
    · refine (ren_newConst _).bind fun k => ?_
      have := ren_newAdd (ρ := ρ) (H := H) (H' := H') (acc.2 ++ [k])
      simpa using this
    · exact ren_newAdd _

theorem ren_gather2 (a b : Node F) : gather (gather ((zero : F), []) (a.ren ρ)) (b.ren ρ) =
    ((gather (gather (zero, []) a) b).1, (gather (gather (zero, []) a) b).2.map (Node.ren ρ)) := by
  have h1 := ren_gather (ρ := ρ) ((zero : F), []) a
  simp only [List.map_nil] at h1
  rw [h1, ren_gather]

theorem ren_addN (a b : Node F) : RN (addN a b) (addN (a.ren ρ) (b.ren ρ)) (Node.ren ρ) := by
  unfold addN
  rw [ren_isConstVal, ren_isConstVal, ren_gather2]
  split
  · exact .pure rfl
  · split
    · exact .pure rfl
    · exact ren_finishAdd _

theorem ren_addS (a : Node F) (c : F) : RN (addS a c) (addS (a.ren ρ) c) (Node.ren ρ) := by
  unfold addS
  split
  · exact .pure rfl
  · exact (ren_newConst c).bind fun k => by rw [ren_gather2]; exact ren_finishAdd _

theorem ren_sAdd (a : Node F) (c : F) : RN (sAdd c a) (sAdd c (a.ren ρ)) (Node.ren ρ) := by
  unfold sAdd
  split
  · exact .pure rfl
  · exact (ren_newConst c).bind fun k => by rw [ren_gather2]; exact ren_finishAdd _

theorem ren_sMul (c : F) (a : Node F) : RN (sMul c a) (sMul c (a.ren ρ)) (Node.ren ρ) := by
  have gen : ∀ a : Node F, RN (if c ==. zero then newConst zero else if c ==. one then M.pure a else M.bind (newConst c) fun k => newMul k a)
      (if c ==. zero then newConst zero else if c ==. one then M.pure (a.ren ρ) else M.bind (newConst c) fun k => newMul k (a.ren ρ)) (Node.ren ρ) := by
    intro a
    split
    · exact ren_newConst _
    · split
      · exact .pure rfl
      · exact (ren_newConst c).bind fun k => ren_newMul _ _
  induction a using Node.ind with
  | const i v => exact ren_newConst _
  | add i args ih =>
    simp only [sMul, Node.ren, rens_eq, sMulL_eq_mapL]
    split
    · exact ren_newConst _
    · split
      · exact .pure (by simp [Node.ren, rens_eq])
      · exact (RenM.mapL ih).bind fun bs => ren_newAdd _
  | var i s k => exact gen (.var i s k)
  | cos i a _ => exact gen (.cos i a)
  | sin i a _ => exact gen (.sin i a)
  | mul i a b _ _ => exact gen (.mul i a b)
  | div i a b _ _ => exact gen (.div i a b)

theorem ren_mulS (c : F) (a : Node F) : RN (mulS c a) (mulS c (a.ren ρ)) (Node.ren ρ) := by
  have gen : ∀ a : Node F, RN (if c ==. zero then newConst zero else if c ==. one then M.pure a else M.bind (newConst c) fun k => newMul a k)
      (if c ==. zero then newConst zero else if c ==. one then M.pure (a.ren ρ) else M.bind (newConst c) fun k => newMul (a.ren ρ) k) (Node.ren ρ) := by
    intro a
    split
    · exact ren_newConst _
    · split
      · exact .pure rfl
      · exact (ren_newConst c).bind fun k => ren_newMul _ _
  induction a using Node.ind with
  | const i v => exact ren_newConst _
  | add i args ih =>
    simp only [mulS, Node.ren, rens_eq, mulSL_eq_mapL]
    split
    · exact ren_newConst _
    · split
      · exact .pure (by simp [Node.ren, rens_eq])
      · exact (RenM.mapL ih).bind fun bs => ren_newAdd _
  | var i s k => exact gen (.var i s k)
  | cos i a _ => exact gen (.cos i a)
  | sin i a _ => exact gen (.sin i a)
  | mul i a b _ _ => exact gen (.mul i a b)
  | div i a b _ _ => exact gen (.div i a b)

theorem ren_mulN (a b : Node F) : RN (mulN a b) (mulN (a.ren ρ) (b.ren ρ)) (Node.ren ρ) := by
  have step : ∀ a b : Node F,
      (∀ i c j args, a = .const i c → b = .add j args → ∀ x ∈ args, RN (mulN (.const i c) x) (mulN (.const (ρ i) c) (x.ren ρ)) (Node.ren ρ)) →
      (∀ i c j args, b = .const i c → a = .add j args → ∀ x ∈ args, RN (mulN x (.const i c)) (mulN (x.ren ρ) (.const (ρ i) c)) (Node.ren ρ)) →
      RN (mulN a b) (mulN (a.ren ρ) (b.ren ρ)) (Node.ren ρ) := by
    intro a b hl hr
    rw [mulN_unfold a b, mulN_unfold (a.ren ρ) (b.ren ρ), ren_isConstVal, ren_isConstVal, ren_isConstVal, ren_isConstVal, ren_isConstant, ren_isConstant,
      ren_evaluate, ren_evaluate]
    split
    · exact ren_newConst _
    · split
      · exact .pure rfl
      · split
        · exact .pure rfl
        · split
          · exact ren_newConst _
          · have hm := ren_newMul (ρ := ρ) (H := H) (H' := H') a b
            cases a <;> cases b <;> first
              | exact hm
              | (simp only [Node.ren, rens_eq]
                 exact (RenM.mapL fun x hx => hl _ _ _ _ rfl rfl x hx).bind fun _ => ren_newAdd _)
              | (simp only [Node.ren, rens_eq]
                 exact (RenM.mapL fun x hx => hr _ _ _ _ rfl rfl x hx).bind fun _ => ren_newAdd _)
  have left : ∀ (b : Node F) i c, RN (mulN (.const i c) b) (mulN (.const (ρ i) c) (b.ren ρ)) (Node.ren ρ) := by
    intro b
    induction b using Node.ind_args with
    | step b ih =>
      intro i c
      refine step (.const i c) b ?_ ?_
      · intro i2 c2 j args h1 h2 x hx
        cases h1
        exact ih x (by rw [h2]; exact hx) _ _
      · intro i2 c2 j args h1 h2; cases h2
  have right : ∀ (a : Node F) i c, RN (mulN a (.const i c)) (mulN (a.ren ρ) (.const (ρ i) c)) (Node.ren ρ) := by
    intro a
    induction a using Node.ind_args with
    | step a ih =>
      intro i c
      refine step a (.const i c) ?_ ?_
      · intro i2 c2 j args h1 h2; cases h2
      · intro i2 c2 j args h1 h2 x hx
        cases h1
        exact ih x (by rw [h2]; exact hx) _ _
  exact step a b (fun i c j args _ _ x _ => left x i c) (fun i c j args _ _ x _ => right x i c)

theorem ren_negN (a : Node F) : RN (negN a) (negN (a.ren ρ)) (Node.ren ρ) := by
  cases a with
  | const i v => exact ren_newConst _
  | var i s k => exact ren_sMul negOne (.var i s k)
  | add i args => exact ren_sMul negOne (.add i args)
  | cos i a => exact ren_sMul negOne (.cos i a)
  | sin i a => exact ren_sMul negOne (.sin i a)
  | mul i a b => exact ren_sMul negOne (.mul i a b)
  | div i a b => exact ren_sMul negOne (.div i a b)

theorem ren_subN (a b : Node F) : RN (subN a b) (subN (a.ren ρ) (b.ren ρ)) (Node.ren ρ) :=
  (ren_sMul _ b).bind fun _ => ren_addN _ _
theorem ren_subS (a : Node F) (c : F) : RN (subS a c) (subS (a.ren ρ) c) (Node.ren ρ) :=
  (ren_newConst c).bind fun k => (ren_sMul _ k).bind fun _ => ren_addN _ _
theorem ren_sSub (a : Node F) (c : F) : RN (sSub c a) (sSub c (a.ren ρ)) (Node.ren ρ) :=
  (ren_newConst c).bind fun k => (ren_sMul _ a).bind fun _ => ren_addN _ _

theorem ren_divN (a b : Node F) : RN (divN a b) (divN (a.ren ρ) (b.ren ρ)) (Node.ren ρ) := by
  unfold divN
  rw [ren_isConstVal, ren_isConstVal, ren_isConstVal, ren_isConstant, ren_isConstant, ren_evaluate, ren_evaluate]
  split
  · exact .panic
  · split
    · exact .pure rfl
    · split
      · exact ren_newConst _
      · split
        · exact ren_newConst _
        · exact ren_newDiv _ _

theorem ren_divS (a : Node F) (c : F) : RN (divS a c) (divS (a.ren ρ) c) (Node.ren ρ) := by
  unfold divS
  rw [ren_isConstVal, ren_isConstant, ren_evaluate]
  split
  · exact .panic
  · split
    · exact .pure rfl
    · split
      · exact ren_newConst _
      · split
        · exact ren_newConst _
        · exact (ren_newConst c).bind fun k => ren_newDiv _ _

theorem ren_sDiv (b : Node F) (c : F) : RN (sDiv c b) (sDiv c (b.ren ρ)) (Node.ren ρ) := by
  unfold sDiv
  rw [ren_isConstVal, ren_isConstVal, ren_isConstant, ren_evaluate]
  split
  · exact .panic
  · split
    · exact ren_newConst _
    · split
      · exact ren_newConst _
      · split
        · exact ren_newConst _
        · exact (ren_newConst c).bind fun k => ren_newDiv _ _

theorem ren_cosN (a : Node F) : RN (cosN a) (cosN (a.ren ρ)) (Node.ren ρ) := by
  have h := ren_newCos (ρ := ρ) (H := H) (H' := H') a
  cases a <;> first | exact ren_newConst _ | exact h

theorem ren_sinN (a : Node F) : RN (sinN a) (sinN (a.ren ρ)) (Node.ren ρ) := by
  have h := ren_newSin (ρ := ρ) (H := H) (H' := H') a
  cases a <;> first | exact ren_newConst _ | exact h

theorem ren_partialN (hρ : Function.Injective ρ) (a b : Node F) : RN (partialN a b) (partialN (a.ren ρ) (b.ren ρ)) (Node.ren ρ) := by
  cases a with
  | const i v => exact ren_newConst _
  | var i s k =>
    have := ren_ptrEq hρ (.var i s k) b
    simp only [Node.ren] at this
    simp only [partialN, Node.ren, this]; exact ren_newConst _
  | add i args =>
    simp only [partialN, Node.ren, rens_eq, List.any_map]
    have : (args.any ((fun x => x.ptrEq (b.ren ρ)) ∘ Node.ren ρ)) = args.any fun a => a.ptrEq b := by
      congr 1; funext x; exact ren_ptrEq hρ x b
    rw [this]; exact ren_newConst _
  | cos i a =>
    simp only [partialN, Node.ren, ren_ptrEq hρ]; split
    · exact (ren_sinN a).bind fun _ => ren_negN _
    · exact ren_newConst _
  | sin i a =>
    simp only [partialN, Node.ren, ren_ptrEq hρ]; split
    · exact ren_cosN a
    · exact ren_newConst _
  | mul i a c =>
    simp only [partialN, Node.ren, ren_ptrEq hρ]; split
    · exact .pure rfl
    · split
      · exact .pure rfl
      · exact ren_newConst _
  | div i a c =>
    simp only [partialN, Node.ren, ren_ptrEq hρ]; split
    · exact ren_sDiv _ _
    · split
      · exact (ren_negN a).bind fun _ => (ren_mulN c c).bind fun _ => ren_divN _ _
      · exact ren_newConst _

end

end Verif
