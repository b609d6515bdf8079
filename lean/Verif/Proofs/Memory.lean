import Verif.Spec.Memory
import Verif.Proofs.Node
import Mathlib.Data.List.Count
import Mathlib.Data.List.Perm.Basic

/-!
# The invariant of the memory: reference counts are right, and references go to older cells
-/

namespace Verif

variable {F : Type}

/-- All references. -/
def Store.refs (S : Store F) : List Nat := S.handles ++ (S.pending ++ S.blocks.flatMap fun b => b.cell.children)

structure Store.Inv (S : Store F) : Prop where
  addrs : (S.blocks.map Block.addr).Nodup
  ids : (S.blocks.map Block.id).Nodup
  rc : ∀ b ∈ S.blocks, b.rc = S.refs.count b.addr
  pos : ∀ b ∈ S.blocks, 1 ≤ b.rc
  valid : ∀ r ∈ S.refs, ∃ b ∈ S.blocks, b.addr = r
  bound : ∀ b ∈ S.blocks, b.id < S.next
  older : ∀ b ∈ S.blocks, ∀ c ∈ b.cell.children, ∀ b' ∈ S.blocks, b'.addr = c → b'.id < b.id
  typed : ∀ b ∈ S.blocks, ∀ c ∈ b.cell.children, ∀ b' ∈ S.blocks, b'.addr = c → b'.cell.isNode = true

theorem addr_inj {bs : List (Block F)} (h : (bs.map Block.addr).Nodup) {b c : Block F} (hb : b ∈ bs) (hc : c ∈ bs) (he : b.addr = c.addr) : b = c :=
  List.inj_on_of_nodup_map h hb hc he

theorem find_some {S : Store F} {a : Nat} {b : Block F} (h : S.find a = some b) : b ∈ S.blocks ∧ b.addr = a := by
  unfold Store.find at h
  exact ⟨List.mem_of_find?_eq_some h, by simpa using List.find?_some h⟩

theorem find_none {S : Store F} {a : Nat} (h : S.find a = none) : ∀ b ∈ S.blocks, b.addr ≠ a := by
  unfold Store.find at h
  rw [List.find?_eq_none] at h
  intro b hb he
  exact h b hb (by simpa using he)

theorem mem_setRc {f : Nat → Nat} {a : Nat} {bs : List (Block F)} {b : Block F} (h : b ∈ setRc f a bs) :
    ∃ c ∈ bs, b.addr = c.addr ∧ b.id = c.id ∧ b.cell = c.cell ∧ b.rc = if c.addr = a then f c.rc else c.rc := by
  simp only [setRc, List.mem_map] at h
  obtain ⟨c, hc, rfl⟩ := h
  refine ⟨c, hc, ?_⟩
  split <;> simp

theorem setRc_mem {f : Nat → Nat} {a : Nat} {bs : List (Block F)} {c : Block F} (h : c ∈ bs) :
    ∃ b ∈ setRc f a bs, b.addr = c.addr ∧ b.id = c.id ∧ b.cell = c.cell := by
  refine ⟨if c.addr = a then { c with rc := f c.rc } else c, List.mem_map.2 ⟨c, h, rfl⟩, ?_⟩
  split <;> simp

theorem map_setRc {β : Type} (g : Block F → β) (hg : ∀ b : Block F, ∀ r, g { b with rc := r } = g b) (f : Nat → Nat) (a : Nat) (bs : List (Block F)) :
    (setRc f a bs).map g = bs.map g := by
  simp only [setRc, List.map_map]
  apply List.map_congr_left
  intro b _
  simp only [Function.comp]
  split
  · rw [hg]
  · rfl

theorem children_setRc (f : Nat → Nat) (a : Nat) (bs : List (Block F)) :
    ((setRc f a bs).flatMap fun b => b.cell.children) = bs.flatMap fun b => b.cell.children := by
  rw [List.flatMap_def, List.flatMap_def, map_setRc]
  intros; rfl

theorem takeOut_perm {as hs r : List Nat} (h : takeOut as hs = some r) : hs.Perm (as ++ r) := by
  induction as generalizing hs with
  | nil => simp only [takeOut, Option.some.injEq] at h; subst h; exact .refl _
  | cons a as ih =>
    simp only [takeOut] at h
    split at h
    · rename_i hm
      exact (List.perm_cons_erase hm).trans ((ih h).cons a)
    · cases h

theorem perm_filter {bs : List (Block F)} (h : (bs.map Block.addr).Nodup) {b : Block F} (hb : b ∈ bs) :
    bs.Perm (b :: bs.filter fun c => c.addr != b.addr) := by
  induction bs with
  | nil => cases hb
  | cons c cs ih =>
    simp only [List.map_cons, List.nodup_cons] at h
    by_cases hcb : c.addr = b.addr
    · have : c = b := by
        rcases List.mem_cons.1 hb with rfl | hb
        · rfl
        · exact absurd (List.mem_map.2 ⟨b, hb, hcb.symm⟩) h.1
      subst this
      rw [List.filter_cons_of_neg (by simp), List.filter_eq_self.2]
      intro d hd
      have : d.addr ≠ c.addr := fun he => h.1 (List.mem_map.2 ⟨d, hd, he⟩)
      simpa using this
    · have hb' : b ∈ cs := by
        rcases List.mem_cons.1 hb with rfl | hb
        · exact absurd rfl hcb
        · exact hb
      rw [List.filter_cons_of_pos (by simpa using hcb)]
      exact ((ih h.2 hb').cons c).trans (.swap _ _ _)

theorem Store.Inv.start : (Store.start : Store F).Inv := by
  constructor <;> simp [Store.start, Store.refs]

/-- A block changes its count, and the references change accordingly. -/
theorem inv_setRc {S S' : Store F} (h : S.Inv) {f : Nat → Nat} {a : Nat} (hb : S'.blocks = setRc f a S.blocks) (hn : S'.next = S.next)
    (hrc : ∀ b ∈ S.blocks, b.addr = a → f b.rc = S'.refs.count a ∧ 1 ≤ f b.rc) (hoth : ∀ x, x ≠ a → S'.refs.count x = S.refs.count x)
    (hv : ∀ r ∈ S'.refs, r ∈ S.refs ∨ ∃ b ∈ S.blocks, b.addr = r) : S'.Inv := by
  constructor
  · rw [hb, map_setRc _ (fun _ _ => rfl)]; exact h.addrs
  · rw [hb, map_setRc _ (fun _ _ => rfl)]; exact h.ids
  · intro b hm
    rw [hb] at hm
    obtain ⟨c, hc, h1, -, -, h4⟩ := mem_setRc hm
    rw [h4, h1]
    split
    · rename_i he; rw [he]; exact (hrc c hc he).1
    · rename_i he; rw [hoth _ he]; exact h.rc c hc
  · intro b hm
    rw [hb] at hm
    obtain ⟨c, hc, h1, -, -, h4⟩ := mem_setRc hm
    rw [h4]
    split
    · rename_i he; exact (hrc c hc he).2
    · exact h.pos c hc
  · intro r hr
    have : ∃ b ∈ S.blocks, b.addr = r := by
      rcases hv r hr with h1 | h1
      · exact h.valid r h1
      · exact h1
    obtain ⟨c, hc, rfl⟩ := this
    obtain ⟨b, hb', h1, -, -⟩ := setRc_mem (f := f) (a := a) hc
    exact ⟨b, hb ▸ hb', h1⟩
  · intro b hm
    rw [hb] at hm
    obtain ⟨c, hc, -, h2, -, -⟩ := mem_setRc hm
    rw [h2, hn]; exact h.bound c hc
  · intro b hm x hx b' hm' he
    rw [hb] at hm hm'
    obtain ⟨c, hc, -, h2, h3, -⟩ := mem_setRc hm
    obtain ⟨c', hc', h1', h2', -, -⟩ := mem_setRc hm'
    rw [h2, h2']
    exact h.older c hc x (h3 ▸ hx) c' hc' (h1' ▸ he)
  · intro b hm x hx b' hm' he
    rw [hb] at hm hm'
    obtain ⟨c, hc, -, -, h3, -⟩ := mem_setRc hm
    obtain ⟨c', hc', h1', -, h3', -⟩ := mem_setRc hm'
    rw [h3']
    exact h.typed c hc x (h3 ▸ hx) c' hc' (h1' ▸ he)

theorem refs_incr {S : Store F} (a : Nat) :
    Store.refs { S with blocks := setRc (· + 1) a S.blocks, handles := a :: S.handles } = a :: S.refs := by
  simp only [Store.refs, children_setRc, List.cons_append]

theorem inv_incr {S : Store F} (h : S.Inv) (a : Nat) (ha : ∃ b ∈ S.blocks, b.addr = a) :
    Store.Inv { S with blocks := setRc (· + 1) a S.blocks, handles := a :: S.handles } := by
  refine inv_setRc h rfl rfl ?_ ?_ ?_
  · intro b hb he
    rw [refs_incr, List.count_cons_self, h.rc b hb, he]
    omega
  · intro x hx
    rw [refs_incr, List.count_cons_of_ne (Ne.symm hx)]
  · intro r hr
    rw [refs_incr] at hr
    rcases List.mem_cons.1 hr with rfl | hr
    · exact .inr ha
    · exact .inl hr

theorem refs_new {S : Store F} {c : Cell F} {a : Nat} {hs : List Nat} (h : takeOut c.children S.handles = some hs) :
    (a :: S.refs).Perm (Store.refs { S with blocks := ⟨a, 1, S.next, c⟩ :: S.blocks, next := S.next + 1, handles := a :: hs }) := by
  have hp := takeOut_perm h
  rw [List.perm_iff_count]
  intro x
  have := hp.count_eq x
  simp only [Store.refs, List.flatMap_cons, List.count_append, List.count_cons, List.cons_append] at this ⊢
  omega

theorem inv_exec {S S' : Store F} {op : MemOp F} (h : S.Inv) (he : S.exec op = .ok S') : S'.Inv := by
  cases op with
  | new c a =>
    simp only [Store.exec] at he
    split at he
    · cases he
    rename_i hfree
    split at he
    · cases he
    rename_i hty
    split at he
    · cases he
    rename_i hs hto
    simp only [Except.ok.injEq] at he
    have hfree' : ∀ b ∈ S.blocks, b.addr ≠ a := by
      intro b hb he
      exact hfree (List.any_eq_true.2 ⟨b, hb, by simpa using he⟩)
    have hp := refs_new (a := a) hto
    rw [he] at hp
    have ha : a ∉ S.refs := fun hm => by
      obtain ⟨b, hb, he⟩ := h.valid a hm
      exact hfree' b hb he
    have hch : ∀ x ∈ c.children, x ∈ S.refs := fun x hx => List.mem_append_left _ ((takeOut_perm hto).mem_iff.2 (List.mem_append_left _ hx))
    subst he
    constructor
    · simp only [List.map_cons, List.nodup_cons]
      refine ⟨?_, h.addrs⟩
      intro hm
      obtain ⟨b, hb, he⟩ := List.mem_map.1 hm
      exact hfree' b hb he
    · simp only [List.map_cons, List.nodup_cons]
      refine ⟨?_, h.ids⟩
      intro hm
      obtain ⟨b, hb, he⟩ := List.mem_map.1 hm
      have := h.bound b hb
      omega
    · intro b hb
      rw [← hp.count_eq]
      rcases List.mem_cons.1 hb with rfl | hb
      · rw [List.count_cons_self, List.count_eq_zero.2 ha]
      · rw [List.count_cons_of_ne (Ne.symm (hfree' b hb))]
        exact h.rc b hb
    · intro b hb
      rcases List.mem_cons.1 hb with rfl | hb
      · exact le_refl _
      · exact h.pos b hb
    · intro r hr
      rcases List.mem_cons.1 (hp.mem_iff.2 hr) with rfl | hr
      · exact ⟨_, List.mem_cons_self, rfl⟩
      · obtain ⟨b, hb, he⟩ := h.valid r hr
        exact ⟨b, List.mem_cons_of_mem _ hb, he⟩
    · intro b hb
      rcases List.mem_cons.1 hb with rfl | hb
      · exact Nat.lt_succ_self _
      · exact (h.bound b hb).trans (Nat.lt_succ_self _)
    · intro b hb x hx b' hb' he
      rcases List.mem_cons.1 hb with rfl | hb
      · rcases List.mem_cons.1 hb' with rfl | hb'
        · have he' : a = x := he
          exact absurd (he' ▸ hch x hx) ha
        · exact h.bound b' hb'
      · rcases List.mem_cons.1 hb' with rfl | hb'
        · refine absurd ?_ ha
          have : x ∈ S.refs := List.mem_append_right _ (List.mem_append_right _ (List.mem_flatMap.2 ⟨b, hb, hx⟩))
          have he' : a = x := he
          exact he' ▸ this
        · exact h.older b hb x hx b' hb' he
    · intro b hb x hx b' hb' he
      rcases List.mem_cons.1 hb with rfl | hb
      · rcases List.mem_cons.1 hb' with rfl | hb'
        · have he' : a = x := he
          exact absurd (he' ▸ hch x hx) ha
        · have hty' : c.children.all S.nodeAt = true := by simpa using hty
          have hn := List.all_eq_true.1 hty' x hx
          unfold Store.nodeAt at hn
          cases hf : S.find x with
          | none => rw [hf] at hn; cases hn
          | some d =>
            rw [hf] at hn
            obtain ⟨hd, hdx⟩ := find_some hf
            rw [addr_inj h.addrs hb' hd (he.trans hdx.symm)]
            exact hn
      · rcases List.mem_cons.1 hb' with rfl | hb'
        · refine absurd ?_ ha
          have : x ∈ S.refs := List.mem_append_right _ (List.mem_append_right _ (List.mem_flatMap.2 ⟨b, hb, hx⟩))
          have he' : a = x := he
          exact he' ▸ this
        · exact h.typed b hb x hx b' hb' he
  | clone a =>
    simp only [Store.exec] at he
    split at he
    · split at he
      · cases he
      · rename_i b hf
        cases he
        exact inv_incr h a ⟨b, find_some hf⟩
    · cases he
  | arg a c =>
    simp only [Store.exec] at he
    split at he
    · split at he
      · cases he
      · split at he
        · split at he
          · cases he
          · rename_i b hf
            cases he
            exact inv_incr h c ⟨b, find_some hf⟩
        · cases he
    · cases he
  | drop a =>
    simp only [Store.exec] at he
    split at he
    · rename_i hm
      cases he
      have hp : (Store.refs { S with handles := S.handles.erase a, pending := a :: S.pending }).Perm S.refs := by
        rw [List.perm_iff_count]
        intro x
        have := (List.perm_cons_erase hm).count_eq x
        simp only [Store.refs, List.count_append, List.count_cons] at this ⊢
        omega
      exact ⟨h.addrs, h.ids, fun b hb => (h.rc b hb).trans (hp.count_eq _).symm, h.pos, fun r hr => h.valid r (hp.mem_iff.1 hr), h.bound, h.older, h.typed⟩
    · cases he
  | release =>
    simp only [Store.exec] at he
    split at he
    · cases he
    rename_i a ps hps
    split at he
    · cases he
    rename_i b hf
    obtain ⟨hb, rfl⟩ := find_some hf
    split at he
    · rename_i hrc
      simp only [Except.ok.injEq] at he
      have hp := perm_filter h.addrs hb
      have hrefs : S.refs.Perm (b.addr :: S'.refs) := by
        rw [List.perm_iff_count]
        intro x
        have h1 := (hp.flatMap_right (fun b : Block F => b.cell.children)).count_eq x
        subst he
        simp only [Store.refs, hps, List.flatMap_cons, List.count_append, List.count_cons] at h1 ⊢
        omega
      have hnot : b.addr ∉ S'.refs := by
        have h1 := h.rc b hb
        rw [hrefs.count_eq, List.count_cons_self] at h1
        exact List.count_eq_zero.1 (by omega)
      have hsub : ∀ c ∈ S'.blocks, c ∈ S.blocks ∧ c.addr ≠ b.addr := by
        subst he
        intro c hc
        simpa using List.mem_filter.1 hc
      have hsl : S'.blocks.Sublist S.blocks := by subst he; exact List.filter_sublist
      constructor
      · exact h.addrs.sublist (hsl.map _)
      · exact h.ids.sublist (hsl.map _)
      · intro c hc
        rw [h.rc c (hsub c hc).1, hrefs.count_eq, List.count_cons_of_ne (Ne.symm (hsub c hc).2)]
      · intro c hc; exact h.pos c (hsub c hc).1
      · intro r hr
        obtain ⟨c, hc, rfl⟩ := h.valid r (hrefs.mem_iff.2 (List.mem_cons_of_mem _ hr))
        refine ⟨c, ?_, rfl⟩
        have hne : c.addr ≠ b.addr := fun h' => hnot (h' ▸ hr)
        subst he
        exact List.mem_filter.2 ⟨hc, by simpa using hne⟩
      · intro c hc
        have : S'.next = S.next := by subst he; rfl
        rw [this]
        exact h.bound c (hsub c hc).1
      · intro c hc x hx d hd hdx
        exact h.older c (hsub c hc).1 x hx d (hsub d hd).1 hdx
      · intro c hc x hx d hd hdx
        exact h.typed c (hsub c hc).1 x hx d (hsub d hd).1 hdx
    · rename_i hrc
      cases he
      have hr : S.refs.Perm (b.addr :: Store.refs { S with blocks := setRc (· - 1) b.addr S.blocks, pending := ps }) := by
        rw [List.perm_iff_count]
        intro x
        simp only [Store.refs, hps, children_setRc, List.count_append, List.count_cons]
        omega
      refine inv_setRc (f := (· - 1)) (a := b.addr) h rfl rfl ?_ ?_ ?_
      · intro c hc hca
        have := addr_inj h.addrs hc hb hca
        subst this
        have h1 := h.rc c hc
        rw [hr.count_eq, List.count_cons_self] at h1
        constructor <;> omega
      · intro x hx
        rw [hr.count_eq, List.count_cons_of_ne (Ne.symm hx)]
      · intro r hr'
        exact .inl (hr.mem_iff.2 (List.mem_cons_of_mem _ hr'))

theorem inv_run {ops : List (MemOp F)} : ∀ {S S' : Store F}, S.Inv → S.run ops = .ok S' → S'.Inv := by
  induction ops with
  | nil => intro S S' h he; cases he; exact h
  | cons op ops ih =>
    intro S S' h he
    simp only [Store.run] at he
    cases h1 : S.exec op with
    | error e => rw [h1] at he; cases he
    | ok S1 =>
      rw [h1] at he
      exact ih (inv_exec h h1) he

theorem Store.Reached.inv {S : Store F} (h : S.Reached) : S.Inv := by
  obtain ⟨ops, h⟩ := h
  exact inv_run Store.Inv.start h

end Verif
