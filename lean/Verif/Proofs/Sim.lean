import Verif.Proofs.Panics
import Verif.Spec.Sim

/-! # Results do not depend on the numbering of cells

Two runs of the same operation from different states give expressions that are equal up to the addresses of the cells that
are not variables, and panic in the same cases. -/

set_option linter.unusedSectionVars false
set_option linter.unusedSimpArgs false

namespace Verif

variable {F : Type}

theorem strips_eq (as : List (Node F)) : strip.strips as = as.map strip := by
  induction as with
  | nil => rfl
  | cons a as ih => simp [strip.strips, ih]

theorem Sim.refl (a : Node F) : Sim a a := rfl
theorem Sim.symm {a b : Node F} (h : Sim a b) : Sim b a := Eq.symm h
theorem Sim.trans {a b c : Node F} (h : Sim a b) (h' : Sim b c) : Sim a c := Eq.trans h h'

def SimL (as bs : List (Node F)) : Prop := List.Forall₂ Sim as bs

theorem simL_iff {as bs : List (Node F)} : SimL as bs ↔ as.map strip = bs.map strip := by
  unfold SimL
  induction as generalizing bs with
  | nil => cases bs <;> simp
  | cons a as ih => cases bs <;> simp [ih, Sim]

theorem SimL.refl (as : List (Node F)) : SimL as as := simL_iff.2 rfl

theorem sim_add {i j : Nat} {as bs : List (Node F)} : Sim (.add i as) (.add j bs) ↔ SimL as bs := by
  simp [Sim, strip, strips_eq, simL_iff]

theorem sim_mul {i j : Nat} {a b c d : Node F} : Sim (.mul i a b) (.mul j c d) ↔ Sim a c ∧ Sim b d := by
  simp [Sim, strip]

theorem sim_div {i j : Nat} {a b c d : Node F} : Sim (.div i a b) (.div j c d) ↔ Sim a c ∧ Sim b d := by
  simp [Sim, strip]

theorem sim_cos {i j : Nat} {a c : Node F} : Sim (.cos i a) (.cos j c) ↔ Sim a c := by simp [Sim, strip]
theorem sim_sin {i j : Nat} {a c : Node F} : Sim (.sin i a) (.sin j c) ↔ Sim a c := by simp [Sim, strip]
theorem sim_const {i j : Nat} {v w : F} : Sim (.const i v) (.const j w) ↔ v = w := by simp [Sim, strip]
theorem sim_var {i j : Nat} {s t : String} {k l : VarKind} :
    Sim (.var i s k : Node F) (.var j t l) ↔ i = j ∧ s = t ∧ k = l := by simp [Sim, strip]

/-- The head constructors agree. -/
theorem Sim.cases {a b : Node F} (h : Sim a b) :
    (∃ i j v, a = .const i v ∧ b = .const j v) ∨ (∃ i s k, a = .var i s k ∧ b = .var i s k) ∨
    (∃ i j as bs, a = .add i as ∧ b = .add j bs ∧ SimL as bs) ∨
    (∃ i j x y, a = .cos i x ∧ b = .cos j y ∧ Sim x y) ∨
    (∃ i j x x' y y', a = .div i x x' ∧ b = .div j y y' ∧ Sim x y ∧ Sim x' y') ∨
    (∃ i j x x' y y', a = .mul i x x' ∧ b = .mul j y y' ∧ Sim x y ∧ Sim x' y') ∨
    (∃ i j x y, a = .sin i x ∧ b = .sin j y ∧ Sim x y) := by
  cases a <;> cases b <;>
    simp_all [Sim, strip, strips_eq, simL_iff]

theorem Sim.isConstant {a b : Node F} (h : Sim a b) : a.isConstant = b.isConstant := by
  rcases h.cases with ⟨_, _, _, rfl, rfl⟩ | ⟨_, _, _, rfl, rfl⟩ | ⟨_, _, _, _, rfl, rfl, _⟩ | ⟨_, _, _, _, rfl, rfl, _⟩ |
    ⟨_, _, _, _, _, _, rfl, rfl, _⟩ | ⟨_, _, _, _, _, _, rfl, rfl, _⟩ | ⟨_, _, _, _, rfl, rfl, _⟩ <;> rfl

variable [FloatOps F]

theorem Sim.isConstVal {a b : Node F} (h : Sim a b) (v : F) : a.isConstVal v = b.isConstVal v := by
  rcases h.cases with ⟨_, _, _, rfl, rfl⟩ | ⟨_, _, _, rfl, rfl⟩ | ⟨_, _, _, _, rfl, rfl, _⟩ | ⟨_, _, _, _, rfl, rfl, _⟩ |
    ⟨_, _, _, _, _, _, rfl, rfl, _⟩ | ⟨_, _, _, _, _, _, rfl, rfl, _⟩ | ⟨_, _, _, _, rfl, rfl, _⟩ <;> rfl

/-- Stripping keeps the value. -/
theorem evaluate_strip (σ : Env F) (a : Node F) : (strip a).evaluate σ = a.evaluate σ := by
  induction a using Node.ind with
  | const i v => rfl
  | var i s k => rfl
  | add i args ih =>
    simp only [strip, strips_eq, Node.evaluate, sumFrom_eq_foldl, List.foldl_map]
    generalize (zero : F) = acc
    induction args generalizing acc with
    | nil => rfl
    | cons a as ih2 =>
      simp only [List.foldl_cons]
      rw [ih a (by simp), ih2 (fun b hb => ih b (by simp [hb]))]
  | cos i a ih => simp [strip, Node.evaluate, ih]
  | sin i a ih => simp [strip, Node.evaluate, ih]
  | mul i a b iha ihb => simp [strip, Node.evaluate, iha, ihb]
  | div i a b iha ihb => simp [strip, Node.evaluate, iha, ihb]

theorem Sim.evaluate {a b : Node F} (h : Sim a b) (σ : Env F) : a.evaluate σ = b.evaluate σ := by
  rw [← evaluate_strip, h, evaluate_strip]

/-! ### Two runs -/

variable {α β γ δ : Type}

theorem Sim2.pure {a : α} {b : β} {P : α → β → Prop} (h : P a b) : Sim2 (M.pure a) (M.pure b) P := fun _ _ => h

theorem Sim2.panic {p : Panic} {P : α → β → Prop} : Sim2 (M.panic p) (M.panic p) P := fun _ _ => rfl

theorem Sim2.bind {x : M α} {y : M β} {P : α → β → Prop} {f : α → M γ} {g : β → M δ} {Q : γ → δ → Prop}
    (h : Sim2 x y P) (hf : ∀ a b, P a b → Sim2 (f a) (g b) Q) : Sim2 (M.bind x f) (M.bind y g) Q := by
  intro n n'
  have h1 := h n n'
  unfold M.bind
  cases hx : x n with
  | error p =>
    cases hy : y n' with
    | error q => rw [hx, hy] at h1; exact h1
    | ok b => rw [hx, hy] at h1; exact h1.elim
  | ok a =>
    cases hy : y n' with
    | error q => rw [hx, hy] at h1; exact h1.elim
    | ok b =>
      obtain ⟨a, k⟩ := a; obtain ⟨b, k'⟩ := b
      rw [hx, hy] at h1
      exact hf a b h1 k k'

theorem Sim2.weaken {x : M α} {y : M β} {P Q : α → β → Prop} (h : Sim2 x y P) (hq : ∀ a b, P a b → Q a b) : Sim2 x y Q := by
  intro n n'
  have h1 := h n n'
  revert h1
  cases x n <;> cases y n' <;> simp
  exact hq _ _

theorem Sim2.ok {x : M α} {y : M β} {P : α → β → Prop} (h : Sim2 x y P) {a : α} {n m : Nat} (hx : x n = .ok (a, m)) (n' : Nat) :
    ∃ b m', y n' = .ok (b, m') ∧ P a b := by
  have h1 := h n n'
  rw [hx] at h1
  cases hy : y n' with
  | error q => rw [hy] at h1; exact h1.elim
  | ok b => rw [hy] at h1; exact ⟨b.1, b.2, rfl, h1⟩

theorem Sim2.error {x : M α} {y : M β} {P : α → β → Prop} (h : Sim2 x y P) {p : Panic} {n : Nat} (hx : x n = .error p) (n' : Nat) :
    y n' = .error p := by
  have h1 := h n n'
  rw [hx] at h1
  cases hy : y n' with
  | error q => rw [hy] at h1; simp at h1; rw [h1]
  | ok b => rw [hy] at h1; exact h1.elim

theorem sim_newConst {v w : F} (h : v = w) : Sim2 (newConst v) (newConst w) Sim := by
  subst h; intro n n'; simp [Sim, strip]
theorem sim_newMul {a b c d : Node F} (h1 : Sim a c) (h2 : Sim b d) : Sim2 (newMul a b) (newMul c d) Sim := by
  intro n n'; simp only [newMul_eq]; exact sim_mul.2 ⟨h1, h2⟩
theorem sim_newDiv {a b c d : Node F} (h1 : Sim a c) (h2 : Sim b d) : Sim2 (newDiv a b) (newDiv c d) Sim := by
  intro n n'; simp only [newDiv_eq]; exact sim_div.2 ⟨h1, h2⟩
theorem sim_newCos {a c : Node F} (h1 : Sim a c) : Sim2 (newCos a) (newCos c) Sim := by
  intro n n'; simp only [newCos_eq]; exact sim_cos.2 h1
theorem sim_newSin {a c : Node F} (h1 : Sim a c) : Sim2 (newSin a) (newSin c) Sim := by
  intro n n'; simp only [newSin_eq]; exact sim_sin.2 h1
theorem sim_newAdd {as bs : List (Node F)} (h : SimL as bs) : Sim2 (newAdd as) (newAdd bs) Sim := by
  intro n n'
  have hl := h.length_eq
  by_cases h2 : 2 ≤ bs.length
  · simp only [newAdd_eq, hl, if_pos h2]; exact sim_add.2 h
  · simp only [newAdd_eq, hl, if_neg h2]

theorem sim_mapL {f g : Node F → M (Node F)} {as bs : List (Node F)} (h : SimL as bs)
    (hf : ∀ a ∈ as, ∀ b, Sim a b → Sim2 (f a) (g b) Sim) : Sim2 (M.mapL f as) (M.mapL g bs) SimL := by
  induction h with
  | nil => exact Sim2.pure .nil
  | cons hab _ ih =>
    simp only [M.mapL]
    refine (hf _ (by simp) _ hab).bind fun x y hxy => ?_
    exact (ih fun a ha => hf a (by simp [ha])).bind fun xs ys hxs => Sim2.pure (.cons hxy hxs)

theorem sim_gatherArgs {c : F} {as as' xs xs' : List (Node F)} (h : SimL as as') (hx : SimL xs xs') :
    (gatherArgs (c, as) xs).1 = (gatherArgs (c, as') xs').1 ∧
      SimL (gatherArgs (c, as) xs).2 (gatherArgs (c, as') xs').2 := by
  induction hx generalizing c as as' with
  | nil => simpa [gatherArgs] using h
  | @cons a b xs ys hab _ ih =>
    have key : SimL (as ++ [a]) (as' ++ [b]) := simL_iff.2 (by simp [simL_iff.1 h, show strip a = strip b from hab])
    rcases hab.cases with ⟨_, _, _, rfl, rfl⟩ | ⟨_, _, _, rfl, rfl⟩ | ⟨_, _, _, _, rfl, rfl, _⟩ | ⟨_, _, _, _, rfl, rfl, _⟩ |
      ⟨_, _, _, _, _, _, rfl, rfl, _⟩ | ⟨_, _, _, _, _, _, rfl, rfl, _⟩ | ⟨_, _, _, _, rfl, rfl, _⟩ <;>
      simp only [gatherArgs] <;> first | exact ih h | exact ih key

theorem sim_gather {c : F} {as as' : List (Node F)} {x x' : Node F} (h : SimL as as') (hx : Sim x x') :
    (gather (c, as) x).1 = (gather (c, as') x').1 ∧ SimL (gather (c, as) x).2 (gather (c, as') x').2 := by
  have key : SimL (as ++ [x]) (as' ++ [x']) := simL_iff.2 (by simp [simL_iff.1 h, show strip x = strip x' from hx])
  rcases hx.cases with ⟨_, _, _, rfl, rfl⟩ | ⟨_, _, _, rfl, rfl⟩ | ⟨_, _, _, _, rfl, rfl, hs⟩ | ⟨_, _, _, _, rfl, rfl, _⟩ |
      ⟨_, _, _, _, _, _, rfl, rfl, _⟩ | ⟨_, _, _, _, _, _, rfl, rfl, _⟩ | ⟨_, _, _, _, rfl, rfl, _⟩ <;>
      simp only [gather] <;> first | exact sim_gatherArgs h hs | exact ⟨trivial, h⟩ | exact ⟨trivial, key⟩

theorem sim_finishAdd {acc acc' : F × List (Node F)} (h1 : acc.1 = acc'.1) (h2 : SimL acc.2 acc'.2) :
    Sim2 (finishAdd acc) (finishAdd acc') Sim := by
  unfold finishAdd
  have hl : acc.2.isEmpty = acc'.2.isEmpty := by
    have := h2.length_eq
    cases h : acc.2 <;> cases h' : acc'.2 <;> simp_all
  rw [hl, h1]
  split
  · exact sim_newConst rfl
  · split
    · refine (sim_newConst rfl).bind fun k k' hk => sim_newAdd ?_
      exact simL_iff.2 (by simp [simL_iff.1 h2, show strip k = strip k' from hk])
    · exact sim_newAdd h2

theorem sim_addN {a b a' b' : Node F} (ha : Sim a a') (hb : Sim b b') : Sim2 (addN a b) (addN a' b') Sim := by
  unfold addN
  rw [ha.isConstVal, hb.isConstVal]
  split
  · exact Sim2.pure hb
  · split
    · exact Sim2.pure ha
    · obtain ⟨h1, h2⟩ := sim_gather (c := (zero : F)) (SimL.refl []) ha
      have h3 := sim_gather (c := (gather ((zero : F), []) a).1) h2 hb
      rw [Prod.mk.eta, h1, Prod.mk.eta] at h3
      exact sim_finishAdd h3.1 h3.2

theorem sim_sMul {c : F} (a : Node F) : ∀ b, Sim a b → Sim2 (sMul c a) (sMul c b) Sim := by
  have gen : ∀ {a b : Node F}, Sim a b → Sim2 (if c ==. zero then newConst zero else if c ==. one then M.pure a
        else M.bind (newConst c) fun k => newMul k a) (if c ==. zero then newConst zero else if c ==. one then M.pure b
        else M.bind (newConst c) fun k => newMul k b) Sim := by
    intro a b h
    split
    · exact sim_newConst rfl
    · split
      · exact Sim2.pure h
      · exact (sim_newConst rfl).bind fun k k' hk => sim_newMul hk h
  induction a using Node.ind with
  | const i v =>
    intro b h
    rcases h.cases with ⟨_, _, _, h1, rfl⟩ | ⟨_, _, _, h1, rfl⟩ | ⟨_, _, _, _, h1, rfl, _⟩ | ⟨_, _, _, _, h1, rfl, _⟩ |
      ⟨_, _, _, _, _, _, h1, rfl, _⟩ | ⟨_, _, _, _, _, _, h1, rfl, _⟩ | ⟨_, _, _, _, h1, rfl, _⟩ <;> cases h1
    exact sim_newConst rfl
  | add i args ih =>
    intro b h
    rcases h.cases with ⟨_, _, _, h1, rfl⟩ | ⟨_, _, _, h1, rfl⟩ | ⟨_, _, _, _, h1, rfl, hs⟩ | ⟨_, _, _, _, h1, rfl, _⟩ |
      ⟨_, _, _, _, _, _, h1, rfl, _⟩ | ⟨_, _, _, _, _, _, h1, rfl, _⟩ | ⟨_, _, _, _, h1, rfl, _⟩ <;> cases h1
    simp only [sMul, sMulL_eq_mapL]
    split
    · exact sim_newConst rfl
    · split
      · exact Sim2.pure h
      · exact (sim_mapL hs ih).bind fun xs ys hxs => sim_newAdd hxs
  | var i s k =>
    intro b h
    rcases h.cases with ⟨_, _, _, h1, rfl⟩ | ⟨_, _, _, h1, rfl⟩ | ⟨_, _, _, _, h1, rfl, hs⟩ | ⟨_, _, _, _, h1, rfl, _⟩ |
      ⟨_, _, _, _, _, _, h1, rfl, _⟩ | ⟨_, _, _, _, _, _, h1, rfl, _⟩ | ⟨_, _, _, _, h1, rfl, _⟩ <;> cases h1
    exact gen h
  | cos i a ih =>
    intro b h
    rcases h.cases with ⟨_, _, _, h1, rfl⟩ | ⟨_, _, _, h1, rfl⟩ | ⟨_, _, _, _, h1, rfl, hs⟩ | ⟨_, _, _, _, h1, rfl, _⟩ |
      ⟨_, _, _, _, _, _, h1, rfl, _⟩ | ⟨_, _, _, _, _, _, h1, rfl, _⟩ | ⟨_, _, _, _, h1, rfl, _⟩ <;> cases h1
    exact gen h
  | div i a b iha ihb =>
    intro b h
    rcases h.cases with ⟨_, _, _, h1, rfl⟩ | ⟨_, _, _, h1, rfl⟩ | ⟨_, _, _, _, h1, rfl, hs⟩ | ⟨_, _, _, _, h1, rfl, _⟩ |
      ⟨_, _, _, _, _, _, h1, rfl, _⟩ | ⟨_, _, _, _, _, _, h1, rfl, _⟩ | ⟨_, _, _, _, h1, rfl, _⟩ <;> cases h1
    exact gen h
  | mul i a b iha ihb =>
    intro b h
    rcases h.cases with ⟨_, _, _, h1, rfl⟩ | ⟨_, _, _, h1, rfl⟩ | ⟨_, _, _, _, h1, rfl, hs⟩ | ⟨_, _, _, _, h1, rfl, _⟩ |
      ⟨_, _, _, _, _, _, h1, rfl, _⟩ | ⟨_, _, _, _, _, _, h1, rfl, _⟩ | ⟨_, _, _, _, h1, rfl, _⟩ <;> cases h1
    exact gen h
  | sin i a ih =>
    intro b h
    rcases h.cases with ⟨_, _, _, h1, rfl⟩ | ⟨_, _, _, h1, rfl⟩ | ⟨_, _, _, _, h1, rfl, hs⟩ | ⟨_, _, _, _, h1, rfl, _⟩ |
      ⟨_, _, _, _, _, _, h1, rfl, _⟩ | ⟨_, _, _, _, _, _, h1, rfl, _⟩ | ⟨_, _, _, _, h1, rfl, _⟩ <;> cases h1
    exact gen h

/-- The product, from the equation that is its text. -/
theorem sim_mulN (a : Node F) : ∀ b a' b', Sim a a' → Sim b b' → Sim2 (mulN a b) (mulN a' b') Sim := by
  have step : ∀ {a b a' b' : Node F}, Sim a a' → Sim b b' →
      (∀ i c j args, a = .const i c → b = .add j args → ∀ x ∈ args, ∀ y, ∀ i', Sim x y →
        Sim2 (mulN (.const i c) x) (mulN (.const i' c) y) Sim) →
      (∀ i c j args, b = .const i c → a = .add j args → ∀ x ∈ args, ∀ y, ∀ i', Sim x y →
        Sim2 (mulN x (.const i c)) (mulN y (.const i' c)) Sim) → Sim2 (mulN a b) (mulN a' b') Sim := by
    intro a b a' b' ha hb hl hr
    rw [mulN_unfold a b, mulN_unfold a' b', ha.isConstVal, hb.isConstVal, ha.isConstVal, hb.isConstVal, ha.isConstant,
      hb.isConstant, ha.evaluate, hb.evaluate]
    split
    · exact sim_newConst rfl
    · split
      · exact Sim2.pure hb
      · split
        · exact Sim2.pure ha
        · split
          · exact sim_newConst rfl
          · have hm := sim_newMul ha hb
            rcases ha.cases with ⟨_, i', _, rfl, rfl⟩ | ⟨_, _, _, rfl, rfl⟩ | ⟨_, _, _, _, rfl, rfl, hs⟩ |
                ⟨_, _, _, _, rfl, rfl, _⟩ | ⟨_, _, _, _, _, _, rfl, rfl, _⟩ | ⟨_, _, _, _, _, _, rfl, rfl, _⟩ |
                ⟨_, _, _, _, rfl, rfl, _⟩ <;>
              rcases hb.cases with ⟨_, j', _, rfl, rfl⟩ | ⟨_, _, _, rfl, rfl⟩ | ⟨_, _, _, _, rfl, rfl, ht⟩ |
                ⟨_, _, _, _, rfl, rfl, _⟩ | ⟨_, _, _, _, _, _, rfl, rfl, _⟩ | ⟨_, _, _, _, _, _, rfl, rfl, _⟩ |
                ⟨_, _, _, _, rfl, rfl, _⟩ <;>
              first
                | exact hm
                | exact (sim_mapL ht fun x hx y hxy => hl _ _ _ _ rfl rfl x hx y i' hxy).bind fun _ _ hxs => sim_newAdd hxs
                | exact (sim_mapL hs fun x hx y hxy => hr _ _ _ _ rfl rfl x hx y j' hxy).bind fun _ _ hxs => sim_newAdd hxs
  have left : ∀ (b b' : Node F) i c i', Sim b b' → Sim2 (mulN (.const i c) b) (mulN (.const i' c) b') Sim := by
    intro b
    induction b using Node.ind_args with
    | step b ih =>
      intro b' i c i' hb
      refine step (sim_const.2 rfl) hb ?_ ?_
      · intro i2 c2 j args h1 h2 x hx y i3 hxy
        cases h1
        exact ih x (by rw [h2]; exact hx) y _ _ _ hxy
      · intro i2 c2 j args h1 h2; cases h2
  have right : ∀ (a a' : Node F) i c i', Sim a a' → Sim2 (mulN a (.const i c)) (mulN a' (.const i' c)) Sim := by
    intro a
    induction a using Node.ind_args with
    | step a ih =>
      intro a' i c i' ha
      refine step ha (sim_const.2 rfl) ?_ ?_
      · intro i2 c2 j args h1 h2; cases h2
      · intro i2 c2 j args h1 h2 x hx y i3 hxy
        cases h1
        exact ih x (by rw [h2]; exact hx) y _ _ _ hxy
  intro b a' b' ha hb
  exact step ha hb (fun i c j args h1 h2 x hx y i' hxy => left x y i c i' hxy)
    (fun i c j args h1 h2 x hx y i' hxy => right x y i c i' hxy)

theorem sim_negN {a b : Node F} (h : Sim a b) : Sim2 (negN a) (negN b) Sim := by
  rcases h.cases with ⟨_, _, _, rfl, rfl⟩ | ⟨_, _, _, rfl, rfl⟩ | ⟨_, _, _, _, rfl, rfl, _⟩ | ⟨_, _, _, _, rfl, rfl, _⟩ |
    ⟨_, _, _, _, _, _, rfl, rfl, _⟩ | ⟨_, _, _, _, _, _, rfl, rfl, _⟩ | ⟨_, _, _, _, rfl, rfl, _⟩ <;>
    first | exact sim_newConst rfl | exact sim_sMul _ _ h

theorem sim_cosN {a b : Node F} (h : Sim a b) : Sim2 (cosN a) (cosN b) Sim := by
  rcases h.cases with ⟨_, _, _, rfl, rfl⟩ | ⟨_, _, _, rfl, rfl⟩ | ⟨_, _, _, _, rfl, rfl, _⟩ | ⟨_, _, _, _, rfl, rfl, _⟩ |
    ⟨_, _, _, _, _, _, rfl, rfl, _⟩ | ⟨_, _, _, _, _, _, rfl, rfl, _⟩ | ⟨_, _, _, _, rfl, rfl, _⟩ <;>
    first | exact sim_newConst rfl | exact sim_newCos h

theorem sim_sinN {a b : Node F} (h : Sim a b) : Sim2 (sinN a) (sinN b) Sim := by
  rcases h.cases with ⟨_, _, _, rfl, rfl⟩ | ⟨_, _, _, rfl, rfl⟩ | ⟨_, _, _, _, rfl, rfl, _⟩ | ⟨_, _, _, _, rfl, rfl, _⟩ |
    ⟨_, _, _, _, _, _, rfl, rfl, _⟩ | ⟨_, _, _, _, _, _, rfl, rfl, _⟩ | ⟨_, _, _, _, rfl, rfl, _⟩ <;>
    first | exact sim_newConst rfl | exact sim_newSin h

theorem sim_divN {a b a' b' : Node F} (ha : Sim a a') (hb : Sim b b') : Sim2 (divN a b) (divN a' b') Sim := by
  unfold divN
  rw [hb.isConstVal, hb.isConstVal, ha.isConstVal, ha.isConstant, hb.isConstant, ha.evaluate, hb.evaluate]
  split
  · exact Sim2.panic
  · split
    · exact Sim2.pure ha
    · split
      · exact sim_newConst rfl
      · split
        · exact sim_newConst rfl
        · exact sim_newDiv ha hb

theorem sim_sDiv {c : F} {b b' : Node F} (hb : Sim b b') : Sim2 (sDiv c b) (sDiv c b') Sim := by
  unfold sDiv
  rw [hb.isConstVal, hb.isConstVal, hb.isConstant, hb.evaluate]
  split
  · exact Sim2.panic
  · split
    · exact sim_newConst rfl
    · split
      · exact sim_newConst rfl
      · split
        · exact sim_newConst rfl
        · exact (sim_newConst rfl).bind fun _ _ hk => sim_newDiv hk hb

/-- Two computations of the same partial derivative. -/
theorem sim_partialN (a b : Node F) : Sim2 (partialN a b) (partialN a b) Sim := by
  have hz : ∀ v : F, Sim2 (newConst v) (newConst v) Sim := fun v => sim_newConst rfl
  cases a
  case const => exact hz _
  case var => exact hz _
  case add => exact hz _
  case cos i a =>
    simp only [partialN]; split
    · exact (sim_sinN (.refl a)).bind fun _ _ h => sim_negN h
    · exact hz _
  case sin i a =>
    simp only [partialN]; split
    · exact sim_cosN (.refl a)
    · exact hz _
  case mul i a c =>
    simp only [partialN]; split
    · exact Sim2.pure (.refl _)
    · split
      · exact Sim2.pure (.refl _)
      · exact hz _
  case div i a c =>
    simp only [partialN]; split
    · exact sim_sDiv (.refl _)
    · split
      · exact (sim_negN (.refl a)).bind fun _ _ h1 => (sim_mulN c c c c (.refl _) (.refl _)).bind fun _ _ h2 => sim_divN h1 h2
      · exact hz _

theorem sim_pathProd (path : List (Node F)) : ∀ {p q : Node F}, Sim p q → Sim2 (pathProd p path) (pathProd q path) Sim := by
  induction path with
  | nil => intro p q h; exact Sim2.pure h
  | cons a path ih =>
    intro p q h
    cases path with
    | nil => exact Sim2.pure h
    | cons b path =>
      simp only [pathProd]
      exact (sim_partialN a b).bind fun _ _ h1 => (sim_mulN _ _ _ _ h h1).bind fun _ _ h2 => ih h2

theorem sim_pathSum (ps : List (List (Node F))) : ∀ {p q : Node F}, Sim p q → Sim2 (pathSum p ps) (pathSum q ps) Sim := by
  induction ps with
  | nil => intro p q h; exact Sim2.pure h
  | cons a ps ih =>
    intro p q h
    simp only [pathSum]
    exact (sim_newConst rfl).bind fun _ _ h1 => (sim_pathProd a h1).bind fun _ _ h2 => (sim_addN h h2).bind fun _ _ h3 => ih h3

end Verif
