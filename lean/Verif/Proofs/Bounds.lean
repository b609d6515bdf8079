import Verif.Proofs.Obj

/-! # The bounds of the standard problem -/

set_option linter.unusedSectionVars false
set_option linter.unusedSimpArgs false

namespace Verif

section
variable {F : Type} [FloatOps F]

theorem stdProperties_strip (a : Node F) : (strip a).stdProperties = a.stdProperties := by
  induction a using Node.ind with
  | const i v => rfl
  | var i s k => rfl
  | add i args ih =>
    simp only [strip, strips_eq, Node.stdProperties]
    generalize (⟨true, [], zero⟩ : Prop' F) = acc
    induction args generalizing acc with
    | nil => rfl
    | cons a as ih2 =>
      simp only [List.map_cons, Node.stdProperties.addProps]
      rw [ih a (by simp)]
      exact ih2 (fun b hb => ih b (by simp [hb])) _
  | cos i a ih => simp only [strip, Node.stdProperties, ih]
  | sin i a ih => simp only [strip, Node.stdProperties, ih]
  | mul i a b iha ihb => simp only [strip, Node.stdProperties, iha, ihb]
  | div i a b iha ihb => simp only [strip, Node.stdProperties, iha, ihb]

theorem Sim.stdProperties {a b : Node F} (h : Sim a b) : a.stdProperties = b.stdProperties := by
  rw [← stdProperties_strip, h, stdProperties_strip]

theorem sim_subN {a b a' b' : Node F} (ha : Sim a a') (hb : Sim b b') : Sim2 (subN a b) (subN a' b') Sim :=
  (sim_sMul b b' hb).bind fun _ _ h => sim_addN ha h

/-- The reported properties of a difference do not depend on when it is built. -/
theorem subN_props {a b e e' : Node F} {n m n' m' : Nat} (h : subN a b n = .ok (e, m)) (h' : subN a b n' = .ok (e', m')) :
    e.stdProperties = e'.stdProperties := by
  obtain ⟨e2, m2, h2, hs⟩ := (sim_subN (Sim.refl a) (Sim.refl b)).ok h n'
  rw [h'] at h2
  injection h2 with h2
  injection h2 with h2
  subst h2
  exact hs.stdProperties

variable {H : HashOrder} {l : Level} {h : Heap F} {n m : Nat} {mod : Model F} {comp : ModelComp F}
  {e : Node F} {ps : List (Piece F)} {cols : List (Node F)} {xes : List (Node F × F)} {ves : List (Node F × Nat)} {sp : StdProb F}

theorem Piece.Ok.bounds_iff {p : Piece F} (hp : p.Ok H l h n m) {x : Node F} {v : F} :
    p.c.Bounds x v ↔ p.kind = .bound x ∧ v = FloatOps.neg p.comp.prop.b := by
  obtain ⟨k, hk⟩ := hp.exp
  constructor
  · rintro ⟨hkind, n', e', m', w, h1, h2, h3, h4, rfl⟩
    rw [subN_props h1 hk, ← hp.prop.2] at *
    refine ⟨?_, rfl⟩
    have hb : p.c.boundVar p.comp.prop = some x := by
      unfold Constraint.boundVar
      rw [h3]
      simp [h2, h4, hkind]
    by_contra hne
    by_cases hex : ∃ y, p.kind = .bound y
    · obtain ⟨y, hy⟩ := hex
      obtain ⟨v', hv', -⟩ := hp.bound y hy
      rw [h3] at hv'
      injection hv' with hv' _
      injection hv' with hv' _
      exact hne (hv' ▸ hy)
    · rw [hp.notBound fun y hy => hex ⟨y, hy⟩] at hb
      cases hb
  · rintro ⟨hkind, rfl⟩
    obtain ⟨w, h1, h2⟩ := hp.bound x hkind
    refine ⟨fun hq => ?_, n, p.exp, k, w, hk, ?_, ?_, h2, ?_⟩
    · rw [hp.equal] at hq
      simp [Piece.bnd, hkind] at hq
    · rw [← hp.prop.2, hp.affine]; simp [Piece.isNl, hkind]
    · rw [← hp.prop.2, h1]
    · rw [hp.prop.2]

theorem MFacts.upper (hf : MFacts H l h n m mod comp e ps) {b : Node F × F × Constraint F} :
    b ∈ comp.constr.u ↔ ∃ p ∈ ps, p.bnd = some (true, b.1, b.2.1) ∧ b.2.2 = p.c := by
  rw [hf.constr]
  simp only [ConstrComp.concat, List.flatMap_map, List.mem_flatMap, Piece.out, Piece.bounds]
  refine exists_congr fun p => and_congr_right fun _ => ?_
  obtain ⟨x, v, c⟩ := b
  cases hb : p.bnd with
  | none => simp
  | some t =>
    obtain ⟨d, y, w⟩ := t
    cases d <;> simp
    constructor <;> rintro ⟨h1, h2, h3⟩ <;> simp_all

theorem MFacts.lower (hf : MFacts H l h n m mod comp e ps) {b : Node F × F × Constraint F} :
    b ∈ comp.constr.l ↔ ∃ p ∈ ps, p.bnd = some (false, b.1, b.2.1) ∧ b.2.2 = p.c := by
  rw [hf.constr]
  simp only [ConstrComp.concat, List.flatMap_map, List.mem_flatMap, Piece.out, Piece.bounds]
  refine exists_congr fun p => and_congr_right fun _ => ?_
  obtain ⟨x, v, c⟩ := b
  cases hb : p.bnd with
  | none => simp
  | some t =>
    obtain ⟨d, y, w⟩ := t
    cases d <;> simp
    constructor <;> rintro ⟨h1, h2, h3⟩ <;> simp_all

theorem Piece.bnd_dir {p : Piece F} {d : Bool} {x : Node F} {v : F} (hb : p.bnd = some (d, x, v)) : d = decide (p.c.kind = .lessEqual) := by
  unfold Piece.bnd at hb
  split at hb <;> simp_all

theorem Piece.Ok.dir {p : Piece F} (hp : p.Ok H l h n m) {d : Bool} {x : Node F} {v : F} (hb : p.bnd = some (d, x, v)) :
    p.c.kind = if d then .lessEqual else .greaterEqual := by
  have h1 := Piece.bnd_dir hb
  have h2 : p.c.kind ≠ .equal := by rw [Ne, hp.equal, hb]; simp
  rw [h1]
  cases hk : p.c.kind <;> simp_all

theorem Piece.bnd_slack {p : Piece F} {s : Node F} (hs : p.slack = some s) : p.bnd = some (decide (p.c.kind = .lessEqual), s, zero) := by
  unfold Piece.slack at hs
  unfold Piece.bnd
  split at hs <;> simp_all

theorem Piece.bnd_or {p : Piece F} {d : Bool} {x : Node F} {v : F} (hb : p.bnd = some (d, x, v)) :
    (p.kind = .bound x ∧ v = FloatOps.neg p.comp.prop.b) ∨ (p.slack = some x ∧ v = zero) := by
  unfold Piece.bnd at hb
  unfold Piece.slack
  split at hb <;> simp_all

/-- The upper bounds on an old column. -/
theorem SpFacts.upper_old (hf : SpFacts H l h n m mod comp e ps cols xes ves sp) {x : Node F} (hx : x ∈ cols) (hn : x.id < n)
    {v : F} {c : Constraint F} :
    (∃ b ∈ comp.constr.u, b.1.ptrEq x = true ∧ b.2 = (v, c)) ↔ c ∈ mod.constraints ∧ c.kind = .lessEqual ∧ c.Bounds x v := by
  constructor
  · rintro ⟨b, hb, hbx, he⟩
    have hbc : b.1 = x := ((hf.cok.good _ (hf.cmpOk.u b hb)).ptrEq_iff (hf.cok.good _ hx)).1 hbx
    obtain ⟨p, hp, hbnd, hc⟩ := hf.mf.upper.1 hb
    obtain ⟨n', m', -, -, hok⟩ := hf.mf.piece hp
    rw [hbc, he] at hbnd
    rw [he] at hc
    simp only at hc hbnd
    subst hc
    refine ⟨by rw [← hf.mf.cs]; exact List.mem_map.2 ⟨p, hp, rfl⟩, hok.dir hbnd, hok.bounds_iff.2 ?_⟩
    rcases Piece.bnd_or hbnd with h1 | ⟨h1, h2⟩
    · exact h1
    · have := (hf.newCol.2 ⟨p, hp, h1⟩).2
      omega
  · rintro ⟨hc, hk, hb⟩
    rw [← hf.mf.cs] at hc
    obtain ⟨p, hp, rfl⟩ := List.mem_map.1 hc
    obtain ⟨n', m', -, -, hok⟩ := hf.mf.piece hp
    obtain ⟨h1, rfl⟩ := hok.bounds_iff.1 hb
    refine ⟨(x, _, p.c), hf.mf.upper.2 ⟨p, hp, ?_, rfl⟩, ptrEq_refl x, rfl⟩
    simp [Piece.bnd, h1, hk]

/-- The lower bounds on an old column. -/
theorem SpFacts.lower_old (hf : SpFacts H l h n m mod comp e ps cols xes ves sp) {x : Node F} (hx : x ∈ cols) (hn : x.id < n)
    {v : F} {c : Constraint F} :
    (∃ b ∈ comp.constr.l, b.1.ptrEq x = true ∧ b.2 = (v, c)) ↔ c ∈ mod.constraints ∧ c.kind = .greaterEqual ∧ c.Bounds x v := by
  constructor
  · rintro ⟨b, hb, hbx, he⟩
    have hbc : b.1 = x := ((hf.cok.good _ (hf.cmpOk.l b hb)).ptrEq_iff (hf.cok.good _ hx)).1 hbx
    obtain ⟨p, hp, hbnd, hc⟩ := hf.mf.lower.1 hb
    obtain ⟨n', m', -, -, hok⟩ := hf.mf.piece hp
    rw [hbc, he] at hbnd
    rw [he] at hc
    simp only at hc hbnd
    subst hc
    refine ⟨by rw [← hf.mf.cs]; exact List.mem_map.2 ⟨p, hp, rfl⟩, hok.dir hbnd, hok.bounds_iff.2 ?_⟩
    rcases Piece.bnd_or hbnd with h1 | ⟨h1, h2⟩
    · exact h1
    · have := (hf.newCol.2 ⟨p, hp, h1⟩).2
      omega
  · rintro ⟨hc, hk, hb⟩
    rw [← hf.mf.cs] at hc
    obtain ⟨p, hp, rfl⟩ := List.mem_map.1 hc
    obtain ⟨n', m', -, -, hok⟩ := hf.mf.piece hp
    obtain ⟨h1, rfl⟩ := hok.bounds_iff.1 hb
    refine ⟨(x, _, p.c), hf.mf.lower.2 ⟨p, hp, ?_, rfl⟩, ptrEq_refl x, rfl⟩
    simp [Piece.bnd, h1, hk]

/-- Different pieces have different slacks. -/
theorem SpFacts.slack_inj (hf : SpFacts H l h n m mod comp e ps cols xes ves sp) {p p' : Piece F} (hp : p ∈ ps) (hp' : p' ∈ ps) {s : Node F}
    (hs : p.slack = some s) (hs' : p'.slack = some s) : p = p' := by
  obtain ⟨n1, m1, -, -, hok⟩ := hf.mf.piece hp
  obtain ⟨n2, m2, -, -, hok'⟩ := hf.mf.piece hp'
  obtain ⟨k, -, hch⟩ := hf.mf.chain
  rcases Piece.slack_row hs with hl | hl <;> rcases Piece.slack_row hs' with hl' | hl'
  · have h1 := ((hok.slack_lin hl).2 s hs).2
    have h2 := ((hok'.slack_lin hl').2 s hs').2
    exact hch.arow_inj hp hp' hl hl' (slackName_inj.1 (h1.symm.trans h2))
  · have h1 := ((hok.slack_lin hl).2 s hs).2
    have h2 := ((hok'.slack_nl hl').2 s hs').2
    exact absurd (h1.symm.trans h2) slackName_inj.2.2
  · have h1 := ((hok.slack_nl hl).2 s hs).2
    have h2 := ((hok'.slack_lin hl').2 s hs').2
    exact absurd (h2.symm.trans h1) slackName_inj.2.2
  · have h1 := ((hok.slack_nl hl).2 s hs).2
    have h2 := ((hok'.slack_nl hl').2 s hs').2
    exact hch.jrow_inj hp hp' hl hl' (slackName_inj.2.1 (h1.symm.trans h2))

/-- The bounds on a slack column. -/
theorem SpFacts.bound_new (hf : SpFacts H l h n m mod comp e ps cols xes ves sp) {p : Piece F} (hp : p ∈ ps) {s : Node F}
    (hs : p.slack = some s) {v : F} {c : Constraint F} :
    ((∃ b ∈ comp.constr.u, b.1.ptrEq s = true ∧ b.2 = (v, c)) ↔ c = p.c ∧ v = zero ∧ p.c.kind = .lessEqual) ∧
    ((∃ b ∈ comp.constr.l, b.1.ptrEq s = true ∧ b.2 = (v, c)) ↔ c = p.c ∧ v = zero ∧ p.c.kind = .greaterEqual) := by
  obtain ⟨hsc, hn⟩ := hf.newCol.2 ⟨p, hp, hs⟩
  obtain ⟨n', m', -, -, hok⟩ := hf.mf.piece hp
  have hbp := Piece.bnd_slack hs
  have key : ∀ p' ∈ ps, ∀ d w, p'.bnd = some (d, s, w) → p' = p ∧ w = zero := by
    intro p' hp' d w hb
    obtain ⟨n2, m2, -, -, hok'⟩ := hf.mf.piece hp'
    rcases Piece.bnd_or hb with ⟨h1, h2⟩ | ⟨h1, h2⟩
    · exfalso
      obtain ⟨w', h3, -⟩ := hok'.bound s h1
      obtain ⟨hv, ho⟩ := hok'.propKeys (q := (s, w')) (by rw [h3]; simp)
      have := (hf.mf.old s (hf.mf.pieceVar hp' hv ho)).1
      omega
    · exact ⟨hf.slack_inj hp' hp h1 hs, h2⟩
  constructor
  · constructor
    · rintro ⟨b, hb, hbx, he⟩
      have hbc : b.1 = s := ((hf.cok.good _ (hf.cmpOk.u b hb)).ptrEq_iff (hf.cok.good _ hsc)).1 hbx
      obtain ⟨p', hp', hbnd, hc⟩ := hf.mf.upper.1 hb
      rw [hbc, he] at hbnd
      rw [he] at hc
      obtain ⟨rfl, h2⟩ := key p' hp' _ _ hbnd
      exact ⟨hc, h2, hok.dir hbnd⟩
    · rintro ⟨rfl, rfl, hk⟩
      exact ⟨(s, zero, p.c), hf.mf.upper.2 ⟨p, hp, by simp [hbp, hk], rfl⟩, ptrEq_refl s, rfl⟩
  · constructor
    · rintro ⟨b, hb, hbx, he⟩
      have hbc : b.1 = s := ((hf.cok.good _ (hf.cmpOk.l b hb)).ptrEq_iff (hf.cok.good _ hsc)).1 hbx
      obtain ⟨p', hp', hbnd, hc⟩ := hf.mf.lower.1 hb
      rw [hbc, he] at hbnd
      rw [he] at hc
      obtain ⟨rfl, h2⟩ := key p' hp' _ _ hbnd
      exact ⟨hc, h2, hok.dir hbnd⟩
    · rintro ⟨rfl, rfl, hk⟩
      exact ⟨(s, zero, p.c), hf.mf.lower.2 ⟨p, hp, by simp [hbp, hk], rfl⟩, ptrEq_refl s, rfl⟩

end

end Verif
