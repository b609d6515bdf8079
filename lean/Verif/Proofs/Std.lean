import Verif.Spec.Affine
import Verif.Proofs.Diff
import Verif.Proofs.Reach

/-! # Lemmas about standard properties -/

set_option linter.unusedSectionVars false
set_option linter.unusedSimpArgs false

namespace Verif

variable {F : Type}

/-- Keys of an association list. -/
abbrev keysN {β : Type} (m : List (Node F × β)) : List (Node F) := m.map Prod.fst

/-- Common form of `insertN` and `addToN`. -/
def updN {β : Type} (g : β → β → β) (m : List (Node F × β)) (k : Node F) (v : β) : List (Node F × β) :=
  match m with
  | [] => [(k, v)]
  | (x, w) :: m => if x.ptrEq k then (x, g w v) :: m else (x, w) :: updN g m k v

theorem insertN_upd {β : Type} (m : List (Node F × β)) (k : Node F) (v : β) : insertN m k v = updN (fun _ v => v) m k v := by
  induction m with
  | nil => rfl
  | cons e m ih => simp only [insertN, updN, ih]

theorem addToN_upd [FloatOps F] (m : List (Node F × F)) (k : Node F) (v : F) : addToN m k v = updN (· +. ·) m k v := by
  induction m with
  | nil => rfl
  | cons e m ih => simp only [addToN, updN, ih]

section
variable {β : Type} {g : β → β → β}

theorem updN_keys (m : List (Node F × β)) (k : Node F) (v : β) : keysN (updN g m k v) = setInsert (keysN m) k := by
  induction m with
  | nil => simp [updN, setInsert]
  | cons e m ih =>
    obtain ⟨x, w⟩ := e
    simp only [updN]
    by_cases hx : x.ptrEq k = true
    · simp [hx, setInsert]
    · simp only [hx]
      simp only [keysN, Bool.false_eq_true, if_false, List.map_cons] at ih ⊢
      rw [ih]
      unfold setInsert
      simp only [List.any_cons, hx, Bool.false_or]
      split <;> simp

theorem updN_absent {m : List (Node F × β)} {k : Node F} {v : β} (h : ∀ y ∈ keysN m, y.ptrEq k = false) :
    updN g m k v = m ++ [(k, v)] := by
  induction m with
  | nil => rfl
  | cons e m ih =>
    obtain ⟨x, w⟩ := e
    have hx : x.ptrEq k = false := h x (by simp)
    simp [updN, hx, ih fun y hy => h y (by simp only [keysN, List.map_cons, List.mem_cons]; exact .inr hy)]

theorem updN_perm {m m' : List (Node F × β)} (hp : m.Perm m') (hm : NodupP (keysN m)) (k : Node F) (v : β) :
    (updN g m k v).Perm (updN g m' k v) := by
  induction hp with
  | nil => exact .refl _
  | cons e _ ih =>
    obtain ⟨x, w⟩ := e
    simp only [updN]
    split
    · exact .cons _ (by assumption)
    · exact .cons _ (ih (List.pairwise_cons.1 hm).2)
  | swap e1 e2 l =>
    obtain ⟨x1, w1⟩ := e1
    obtain ⟨x2, w2⟩ := e2
    have hne : x2.ptrEq x1 = false := (List.pairwise_cons.1 hm).1 x1 (by simp)
    simp only [updN]
    by_cases h1 : x1.ptrEq k = true
    · have h2 : x2.ptrEq k = false := by
        rw [← Bool.not_eq_true]; intro h2
        rw [ptrEq_trans h2 (by rw [ptrEq_symm]; exact h1)] at hne; cases hne
      simp only [h1, h2, if_true]
      exact .swap ..
    · simp only [h1]
      by_cases h2 : x2.ptrEq k = true
      · simp only [h2, if_true]; exact .swap ..
      · simp only [h2]; exact .swap ..
  | trans h1 _ ih1 ih2 => exact (ih1 hm).trans (ih2 (hm.perm (h1.map _)))

theorem updN_comm (m : List (Node F × β)) {k k' : Node F} (hk : k.ptrEq k' = false) (v v' : β) :
    (updN g (updN g m k v) k' v').Perm (updN g (updN g m k' v') k v) := by
  have hk' : k'.ptrEq k = false := by rw [ptrEq_symm]; exact hk
  induction m with
  | nil => simp only [updN, hk, hk']; exact .swap ..
  | cons e m ih =>
    obtain ⟨x, w⟩ := e
    simp only [updN]
    by_cases h1 : x.ptrEq k = true
    · have h2 : x.ptrEq k' = false := by
        rw [← Bool.not_eq_true]; intro h2
        rw [ptrEq_symm] at h1
        rw [ptrEq_trans h1 h2] at hk; cases hk
      simp [h1, h2, updN]
    · by_cases h2 : x.ptrEq k' = true
      · simp [h1, h2, updN]
      · simp [h1, h2, updN]
        exact ih

/-- Folding the entries of one map into another one. -/
def foldUpd (g : β → β → β) (m l : List (Node F × β)) : List (Node F × β) := l.foldl (fun m e => updN g m e.1 e.2) m

theorem foldUpd_keys (m l : List (Node F × β)) : keysN (foldUpd g m l) = (keysN l).foldl setInsert (keysN m) := by
  induction l generalizing m with
  | nil => rfl
  | cons e l ih =>
    show keysN (foldUpd g (updN g m e.1 e.2) l) = _
    rw [ih, updN_keys]; rfl

theorem foldl_setInsert_mem {l s : List (Node F)} {y : Node F} (h : y ∈ l.foldl setInsert s) : y ∈ s ∨ y ∈ l := by
  induction l generalizing s with
  | nil => exact .inl h
  | cons a l ih =>
    rcases ih h with h | h
    · rcases setInsert_mem h with h | rfl
      · exact .inl h
      · exact .inr (by simp)
    · exact .inr (by simp [h])

theorem foldUpd_nodup {m l : List (Node F × β)} (hm : NodupP (keysN m)) : NodupP (keysN (foldUpd g m l)) := by
  rw [foldUpd_keys]; exact (setOf_go _ _ hm).1

/-- The content of the result does not depend on the order in which the entries are visited. -/
theorem foldUpd_perm {l l' : List (Node F × β)} (hp : l.Perm l') (hl : NodupP (keysN l)) :
    ∀ {m m' : List (Node F × β)}, m.Perm m' → NodupP (keysN m) → (foldUpd g m l).Perm (foldUpd g m' l') := by
  have base : ∀ (l : List (Node F × β)) {m m' : List (Node F × β)}, m.Perm m' → NodupP (keysN m) →
      (foldUpd g m l).Perm (foldUpd g m' l) := by
    intro l
    induction l with
    | nil => intro m m' h _; exact h
    | cons e l ih =>
      intro m m' h hm
      exact ih (updN_perm h hm _ _) (by rw [updN_keys]; exact setInsert_nodup hm)
  induction hp with
  | nil => intro m m' h _; exact h
  | cons e _ ih =>
    intro m m' h hm
    exact ih (List.pairwise_cons.1 hl).2 (updN_perm h hm _ _) (by rw [updN_keys]; exact setInsert_nodup hm)
  | swap e1 e2 l =>
    intro m m' h hm
    have hne : e2.1.ptrEq e1.1 = false := (List.pairwise_cons.1 hl).1 e1.1 (by simp)
    refine base l (m := updN g (updN g m e2.1 e2.2) e1.1 e1.2) (m' := updN g (updN g m' e1.1 e1.2) e2.1 e2.2) ?_ ?_
    · refine (updN_comm m hne _ _).trans (updN_perm (updN_perm h hm _ _) ?_ _ _)
      rw [updN_keys]; exact setInsert_nodup hm
    · rw [updN_keys, updN_keys]; exact setInsert_nodup (setInsert_nodup hm)
  | trans h1 _ ih1 ih2 =>
    intro m m' h hm
    exact (ih1 hl (.refl m) hm).trans (ih2 (hl.perm (h1.map _)) h hm)

end

section
variable [FloatOps F]

theorem foldl_insertN {β γ : Type} (f : Node F × γ → β) (m : List (Node F × β)) (l : List (Node F × γ)) :
    l.foldl (fun m e => insertN m e.1 (f e)) m = foldUpd (fun _ v => v) m (l.map fun e => (e.1, f e)) := by
  induction l generalizing m with
  | nil => rfl
  | cons e l ih => simp only [List.foldl_cons, List.map_cons, foldUpd, insertN_upd] at ih ⊢; exact ih _

theorem foldl_addToN (m l : List (Node F × F)) :
    l.foldl (fun m e => addToN m e.1 e.2) m = foldUpd (· +. ·) m l := by
  unfold foldUpd
  congr 1
  funext m e; exact addToN_upd ..

/-- The keys of the coefficient map: pairwise different variables of the expression, all of them. -/
def KeysOk (keys : List (Node F)) (P : Node F → Prop) : Prop :=
  NodupP keys ∧ (∀ k ∈ keys, k.isVar = true ∧ P k) ∧ ∀ x, x.isVar = true → P x → ∃ k ∈ keys, k.ptrEq x = true

theorem KeysOk.union {l l' keys : List (Node F)} {P Q : Node F → Prop} (h1 : KeysOk l P) (h2 : KeysOk l' Q)
    (hk : keys = l'.foldl setInsert l) : KeysOk keys (fun x => P x ∨ Q x) := by
  subst hk
  obtain ⟨a1, a2, a3, a4⟩ := setOf_go l' l h1.1
  refine ⟨a1, ?_, ?_⟩
  · intro k hk
    rcases a2 k hk with h | h
    · exact ⟨(h1.2.1 k h).1, .inl (h1.2.1 k h).2⟩
    · exact ⟨(h2.2.1 k h).1, .inr (h2.2.1 k h).2⟩
  · intro x hx hP
    rcases hP with hP | hP
    · obtain ⟨k, hk, he⟩ := h1.2.2 x hx hP
      exact ⟨k, a3 k hk, he⟩
    · obtain ⟨k, hk, he⟩ := h2.2.2 x hx hP
      obtain ⟨y, hy, hye⟩ := a4 k hk
      exact ⟨y, hy, ptrEq_trans hye he⟩

theorem KeysOk.congr {keys : List (Node F)} {P Q : Node F → Prop} (h : KeysOk keys P) (hPQ : ∀ x, x.isVar = true → (P x ↔ Q x)) :
    KeysOk keys Q :=
  ⟨h.1, fun k hk => ⟨(h.2.1 k hk).1, (hPQ k (h.2.1 k hk).1).1 (h.2.1 k hk).2⟩, fun x hx hq => h.2.2 x hx ((hPQ x hx).2 hq)⟩

theorem foldl_setInsert_nodup {l : List (Node F)} (h : NodupP l) : ∀ s : List (Node F),
    (∀ a ∈ s, ∀ b ∈ l, a.ptrEq b = false) → l.foldl setInsert s = s ++ l := by
  induction l with
  | nil => intro s _; simp
  | cons a l ih =>
    intro s hs
    have : setInsert s a = s ++ [a] := by
      unfold setInsert
      rw [if_neg]
      simp only [List.any_eq_true, not_exists, not_and, Bool.not_eq_true]
      exact fun y hy => hs y hy a (by simp)
    rw [List.foldl_cons, this, ih (List.pairwise_cons.1 h).2]
    · simp
    · intro x hx b hb
      simp only [List.mem_append, List.mem_singleton] at hx
      rcases hx with hx | rfl
      · exact hs x hx b (by simp [hb])
      · exact (List.pairwise_cons.1 h).1 b hb

theorem foldUpd_nil {β : Type} {g : β → β → β} {l : List (Node F × β)} (h : NodupP (keysN l)) : foldUpd g [] l = l := by
  have : ∀ (l m : List (Node F × β)), NodupP (keysN l) → (∀ a ∈ keysN m, ∀ b ∈ keysN l, a.ptrEq b = false) →
      foldUpd g m l = m ++ l := by
    intro l
    induction l with
    | nil => intro m _ _; simp [foldUpd]
    | cons e l ih =>
      intro m hl hm
      show foldUpd g (updN g m e.1 e.2) l = _
      rw [updN_absent fun y hy => hm y hy e.1 (by simp)]
      rw [ih _ (List.pairwise_cons.1 hl).2]
      · simp
      · intro a ha b hb
        simp only [keysN, List.map_append, List.map_cons, List.map_nil, List.mem_append, List.mem_singleton] at ha
        rcases ha with ha | rfl
        · exact hm a ha b (by simp only [keysN, List.map_cons, List.mem_cons]; exact .inr hb)
        · exact (List.pairwise_cons.1 hl).1 b hb
  simpa using this l [] h (by simp)

theorem keysN_map {β γ : Type} (l : List (Node F × γ)) (f : Node F × γ → β) : keysN (l.map fun e => (e.1, f e)) = keysN l := by
  simp [keysN, List.map_map, Function.comp_def]

theorem addProps_keys (args : List (Node F)) (ih : ∀ a ∈ args, KeysOk (keysN a.stdProperties.a) (fun x => Occurs x a)) :
    ∀ (acc : Prop' F) (P : Node F → Prop), KeysOk (keysN acc.a) P →
      KeysOk (keysN (Node.stdProperties.addProps acc args).a) (fun x => P x ∨ ∃ a ∈ args, Occurs x a) := by
  induction args with
  | nil => intro acc P h; simpa [Node.stdProperties.addProps] using h
  | cons a args ih2 =>
    intro acc P h
    simp only [Node.stdProperties.addProps]
    refine (ih2 (fun b hb => ih b (by simp [hb])) _ (fun x => P x ∨ Occurs x a) ?_).congr ?_
    · exact h.union (ih a (by simp)) (by rw [foldl_addToN, foldUpd_keys])
    · intro x _
      simp only [List.mem_cons, exists_eq_or_imp]
      tauto

theorem stdProperties_keys (e : Node F) : KeysOk (keysN e.stdProperties.a) (fun x => Occurs x e) := by
  induction e using Node.ind with
  | const i v =>
    refine ⟨.nil, by simp [Node.stdProperties], ?_⟩
    intro x hx ho
    rw [occurs_iff] at ho
    rcases ho with rfl | ⟨a, ha, _⟩
    · simp [Node.isVar] at hx
    · simp [Node.arguments] at ha
  | var i s k =>
    refine ⟨List.pairwise_singleton .., ?_, ?_⟩
    · intro k hk
      simp only [keysN, Node.stdProperties, List.map_cons, List.map_nil, List.mem_singleton] at hk
      subst hk
      exact ⟨rfl, .refl _⟩
    · intro x hx ho
      rw [occurs_iff] at ho
      rcases ho with rfl | ⟨a, ha, _⟩
      · exact ⟨_, by simp [Node.stdProperties], ptrEq_refl _⟩
      · simp [Node.arguments] at ha
  | add i args ih =>
    simp only [Node.stdProperties]
    refine (addProps_keys args ih ⟨true, [], zero⟩ (fun _ => False) ⟨.nil, by simp, by simp⟩).congr ?_
    intro x hx
    rw [occurs_iff (x := .add i args)]
    constructor
    · rintro (h | h)
      · exact h.elim
      · exact .inr h
    · rintro (rfl | h)
      · simp [Node.isVar] at hx
      · exact .inr h
  | cos i a ih =>
    refine KeysOk.congr (Q := fun x => Occurs x (.cos i a)) ih ?_
    intro x hx
    rw [occurs_iff (x := .cos i a)]
    simp only [Node.arguments, List.mem_singleton, exists_eq_left]
    exact ⟨.inr, fun h => h.resolve_left (by rintro rfl; simp [Node.isVar] at hx)⟩
  | sin i a ih =>
    refine KeysOk.congr (Q := fun x => Occurs x (.sin i a)) ih ?_
    intro x hx
    rw [occurs_iff (x := .sin i a)]
    simp only [Node.arguments, List.mem_singleton, exists_eq_left]
    exact ⟨.inr, fun h => h.resolve_left (by rintro rfl; simp [Node.isVar] at hx)⟩
  | div i a b iha ihb =>
    have h1 := KeysOk.union (keys := keysN (Node.div i a b).stdProperties.a) iha ihb (by
      simp only [Node.stdProperties]
      rw [foldl_insertN (fun e => e.2 /. b.stdProperties.b), foldl_insertN (fun _ => zero), foldUpd_keys, foldUpd_keys, keysN_map, keysN_map]
      rw [show keysN ([] : List (Node F × F)) = [] from rfl, foldl_setInsert_nodup iha.1 [] (by simp)]; simp)
    refine h1.congr ?_
    intro x hx
    rw [occurs_iff (x := .div i a b)]
    simp only [Node.arguments, List.mem_cons, List.not_mem_nil, or_false, exists_eq_or_imp, exists_eq_left]
    exact ⟨.inr, fun h => h.resolve_left (by rintro rfl; simp [Node.isVar] at hx)⟩
  | mul i a b iha ihb =>
    have h1 := KeysOk.union (keys := keysN (Node.mul i a b).stdProperties.a) iha ihb (by
      simp only [Node.stdProperties]
      rw [foldl_insertN (fun e => e.2 *. b.stdProperties.b), foldl_insertN (fun e => e.2 *. a.stdProperties.b), foldUpd_keys, foldUpd_keys,
        keysN_map, keysN_map]
      rw [show keysN ([] : List (Node F × F)) = [] from rfl, foldl_setInsert_nodup iha.1 [] (by simp)]; simp)
    refine h1.congr ?_
    intro x hx
    rw [occurs_iff (x := .mul i a b)]
    simp only [Node.arguments, List.mem_cons, List.not_mem_nil, or_false, exists_eq_or_imp, exists_eq_left]
    exact ⟨.inr, fun h => h.resolve_left (by rintro rfl; simp [Node.isVar] at hx)⟩

/-! ### Independence of the iteration order -/

theorem addProps_append (acc : Prop' F) (xs ys : List (Node F)) :
    Node.stdProperties.addProps acc (xs ++ ys) = Node.stdProperties.addProps (Node.stdProperties.addProps acc xs) ys := by
  induction xs generalizing acc with
  | nil => rfl
  | cons x xs ih => simp only [List.cons_append, Node.stdProperties.addProps]; exact ih _

theorem isEmpty_perm {α : Type} {l l' : List α} (h : l.Perm l') : l.isEmpty = l'.isEmpty := by
  cases l <;> cases l' <;> simp_all

theorem StdAny.content {e : Node F} {p : Prop' F} (h : StdAny e p) :
    p.affine = e.stdProperties.affine ∧ p.b = e.stdProperties.b ∧ p.a.Perm e.stdProperties.a := by
  induction h with
  | const i v => exact ⟨rfl, rfl, .refl _⟩
  | var i s k => exact ⟨rfl, rfl, .refl _⟩
  | cos _ ih => exact ⟨rfl, ih.2.1, ih.2.2⟩
  | sin _ ih => exact ⟨rfl, ih.2.1, ih.2.2⟩
  | @div i x y p0 p1 l0 l1 _ _ h0 h1 ih0 ih1 =>
    obtain ⟨a1, b1, c1⟩ := ih0
    obtain ⟨a2, b2, c2⟩ := ih1
    simp only [Node.stdProperties]
    refine ⟨by rw [a1, isEmpty_perm c2], by rw [b1, b2], ?_⟩
    rw [foldl_insertN (fun e => e.2 /. p1.b), foldl_insertN (fun _ => zero), foldl_insertN (fun e => e.2 /. y.stdProperties.b),
      foldl_insertN (fun _ => zero), b2]
    have n0 := (stdProperties_keys x).1
    have n1 := (stdProperties_keys y).1
    refine foldUpd_perm ((h1.trans c2).map _) ?_ (foldUpd_perm ((h0.trans c1).map _) ?_ (.refl _) .nil) (foldUpd_nodup .nil)
    · rw [keysN_map]; exact n1.perm (((h1.trans c2).map _).symm)
    · rw [keysN_map]; exact n0.perm (((h0.trans c1).map _).symm)
  | @mul i x y p0 p1 l0 l1 _ _ h0 h1 ih0 ih1 =>
    obtain ⟨a1, b1, c1⟩ := ih0
    obtain ⟨a2, b2, c2⟩ := ih1
    simp only [Node.stdProperties]
    refine ⟨by rw [a1, a2, isEmpty_perm c1, isEmpty_perm c2], by rw [b1, b2], ?_⟩
    rw [foldl_insertN (fun e => e.2 *. p1.b), foldl_insertN (fun e => e.2 *. p0.b), foldl_insertN (fun e => e.2 *. y.stdProperties.b),
      foldl_insertN (fun e => e.2 *. x.stdProperties.b), b1, b2]
    have n0 := (stdProperties_keys x).1
    have n1 := (stdProperties_keys y).1
    refine foldUpd_perm ((h1.trans c2).map _) ?_ (foldUpd_perm ((h0.trans c1).map _) ?_ (.refl _) .nil) (foldUpd_nodup .nil)
    · rw [keysN_map]; exact n1.perm (((h1.trans c2).map _).symm)
    · rw [keysN_map]; exact n0.perm (((h0.trans c1).map _).symm)
  | addNil => exact ⟨rfl, rfl, .refl _⟩
  | @addSnoc i xs x acc p l _ _ hl ih1 ih2 =>
    obtain ⟨a1, b1, c1⟩ := ih1
    obtain ⟨a2, b2, c2⟩ := ih2
    simp only [Node.stdProperties] at a1 b1 c1 ⊢
    rw [addProps_append]
    simp only [Node.stdProperties.addProps]
    refine ⟨by rw [a1, a2], by rw [b1, b2], ?_⟩
    rw [foldl_addToN, foldl_addToN]
    have hn := (stdProperties_keys (.add i xs)).1
    simp only [Node.stdProperties] at hn
    exact foldUpd_perm (hl.trans c2) ((stdProperties_keys x).1.perm (((hl.trans c2).map _).symm)) c1 (hn.perm (c1.map _).symm)

theorem StdAny.self (e : Node F) : StdAny e e.stdProperties := by
  induction e using Node.ind with
  | const i v => exact .const i v
  | var i s k => exact .var i s k
  | cos i a ih => exact .cos ih
  | sin i a ih => exact .sin ih
  | div i a b iha ihb => exact .div iha ihb (.refl _) (.refl _)
  | mul i a b iha ihb => exact .mul iha ihb (.refl _) (.refl _)
  | add i args ih =>
    induction args using List.reverseRecOn with
    | nil => exact .addNil
    | append_singleton xs x ih2 =>
      have := StdAny.addSnoc (ih2 fun a ha => ih a (by simp [ha])) (ih x (by simp)) (.refl _)
      simp only [Node.stdProperties, addProps_append, Node.stdProperties.addProps] at this ⊢
      exact this

end

end Verif
