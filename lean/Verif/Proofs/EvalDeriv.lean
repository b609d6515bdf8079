import Verif.Proofs.EvalSpec
import Verif.Props.ModelStd2

/-! # Entries of gradients, Jacobians and Hessians of the standard problem -/

set_option linter.unusedSectionVars false
set_option linter.unusedSimpArgs false

namespace Verif

section
variable {l : Level} {h : Heap (Option ℝ)} {cols : List (Node (Option ℝ))} {σ : Env (Option ℝ)}

theorem grad_entry (hc : ColsOk l h cols) {gs : List (Node (Option ℝ) × Node (Option ℝ))} (hk : ∀ p ∈ gs, p.1 ∈ cols)
    {D : Node (Option ℝ) → ℝ} (hv : ∀ p ∈ gs, p.2.evaluate σ = some (D p.1))
    {x : Node (Option ℝ)} (hx : x ∈ cols) (h0 : (∀ p ∈ gs, p.1 ≠ x) → D x = 0) :
    valAt (gs.map fun e => (e.1, e.2.evaluate σ)) zero x = some (D x) := by
  unfold valAt
  cases hg : getN (gs.map fun e => (e.1, e.2.evaluate σ)) x with
  | some v =>
    obtain ⟨y, hy, hyx⟩ := getN_some_iff hg
    obtain ⟨p, hp, he⟩ := List.mem_map.1 hy
    simp only [Prod.mk.injEq] at he
    obtain ⟨rfl, rfl⟩ := he
    have := ((hc.good _ (hk p hp)).ptrEq_iff (hc.good _ hx)).1 hyx
    rw [Option.getD_some, hv p hp, this]
  | none =>
    rw [h0]
    · simp
    · rintro p hp rfl
      have := getN_none_iff.1 hg p.1 (List.mem_map.2 ⟨_, List.mem_map.2 ⟨p, hp, rfl⟩, rfl⟩)
      rw [ptrEq_refl] at this; cases this

theorem jac_entry (hc : ColsOk l h cols) {gs : List (Node (Option ℝ) × Node (Option ℝ))} (hk : ∀ p ∈ gs, p.1 ∈ cols)
    (hn : NodupP (keysN gs)) {D : Node (Option ℝ) → ℝ} (hv : ∀ p ∈ gs, p.2.evaluate σ = some (D p.1))
    {x : Node (Option ℝ)} {i : Nat} (hx : cols[i]? = some x) (h0 : (∀ p ∈ gs, p.1 ≠ x) → D x = 0) :
    total ((gs.filter fun p => colOf cols p.1 == i).map fun p => p.2.evaluate σ) = some (D x) := by
  obtain ⟨hi, hxi⟩ := List.getElem?_eq_some_iff.1 hx
  have hcol : colOf cols x = i := by rw [← hxi]; exact hc.col_get hi
  have hxm := List.mem_of_getElem? hx
  have hiff : ∀ p ∈ gs, ((colOf cols p.1 == i) = true ↔ p.1 = x) := fun p hp => by
    rw [beq_iff_eq]
    exact ⟨fun h' => hc.col_inj (hk p hp) hxm (by rw [h', hcol]), fun h' => by rw [h', hcol]⟩
  rcases filter_unique (l := gs) (P := fun p => colOf cols p.1 == i) (by
    have hn' : gs.Pairwise fun a b => a.1.ptrEq b.1 = false := by
      unfold keysN NodupP at hn
      rwa [List.pairwise_map] at hn
    refine hn'.imp_of_mem ?_
    rintro a b ha hb hab ⟨h1, h2⟩
    rw [(hiff a ha).1 h1, (hiff b hb).1 h2, ptrEq_refl] at hab
    cases hab) with he | ⟨p, hp, h1, he⟩
  · rw [he, h0]
    · simp [total]
    · intro p hp hpx
      have := List.filter_eq_nil_iff.1 he p hp
      exact this ((hiff p hp).2 hpx)
  · rw [he, List.map_singleton, total_single, hv p hp, (hiff p hp).1 h1]

theorem hess_entry (hc : ColsOk l h cols) {es : List (Node (Option ℝ) × Node (Option ℝ) × Node (Option ℝ))}
    (hk : ∀ p ∈ es, p.1 ∈ cols ∧ p.2.1 ∈ cols) (hn : es.Pairwise fun p q => ¬ samePair p.1 p.2.1 q.1 q.2.1)
    {D : Node (Option ℝ) → Node (Option ℝ) → ℝ} (hD : ∀ x y, D x y = D y x) (hv : ∀ p ∈ es, p.2.2.evaluate σ = some (D p.1 p.2.1))
    {x y : Node (Option ℝ)} {i j : Nat} (hx : cols[i]? = some x) (hy : cols[j]? = some y) (hij : j ≤ i)
    (h0 : (∀ p ∈ es, ¬ samePair x y p.1 p.2.1) → D x y = 0) (r c : Nat) :
    (valMat r c (hessP cols es) σ).dense i j = some (D x y) := by
  obtain ⟨hi, hxi⟩ := List.getElem?_eq_some_iff.1 hx
  obtain ⟨hj, hyj⟩ := List.getElem?_eq_some_iff.1 hy
  have hcx : colOf cols x = i := by rw [← hxi]; exact hc.col_get hi
  have hcy : colOf cols y = j := by rw [← hyj]; exact hc.col_get hj
  have hxm := List.mem_of_getElem? hx
  have hym := List.mem_of_getElem? hy
  let g := fun e : Node (Option ℝ) × Node (Option ℝ) × Node (Option ℝ) =>
    if colOf cols e.1 ≥ colOf cols e.2.1 then (colOf cols e.1, colOf cols e.2.1, e.2.2) else (colOf cols e.2.1, colOf cols e.1, e.2.2)
  have hg2 : ∀ e, (g e).2.2 = e.2.2 := by intro e; simp only [g]; split <;> rfl
  have hiff : ∀ p ∈ es, (((g p).1 == i && (g p).2.1 == j) = true ↔ (p.1 = x ∧ p.2.1 = y) ∨ (p.1 = y ∧ p.2.1 = x)) := fun p hp => by
    obtain ⟨k1, k2⟩ := hk p hp
    have e1 : ∀ {a b}, a ∈ cols → b ∈ cols → (colOf cols a = colOf cols b ↔ a = b) := fun ha hb =>
      ⟨hc.col_inj ha hb, fun h' => by rw [h']⟩
    rw [← e1 k1 hxm, ← e1 k1 hym, ← e1 k2 hxm, ← e1 k2 hym, hcx, hcy]
    simp only [g, Bool.and_eq_true, beq_iff_eq]
    split <;> simp only <;> omega
  have hsame : ∀ p q : Node (Option ℝ) × Node (Option ℝ) × Node (Option ℝ), (p.1 = x ∧ p.2.1 = y) ∨ (p.1 = y ∧ p.2.1 = x) →
      (q.1 = x ∧ q.2.1 = y) ∨ (q.1 = y ∧ q.2.1 = x) → samePair p.1 p.2.1 q.1 q.2.1 := by
    rintro p q (⟨a, b⟩ | ⟨a, b⟩) (⟨c, d⟩ | ⟨c, d⟩) <;> rw [a, b, c, d] <;> simp [samePair, ptrEq_refl]
  rw [valMat_dense]
  have : hessP cols es = es.map g := rfl
  rw [this, List.filter_map, List.map_map]
  rcases filter_unique (l := es) (P := fun p => (g p).1 == i && (g p).2.1 == j) (by
    refine hn.imp_of_mem ?_
    rintro a b ha hb hab ⟨h1, h2⟩
    exact hab (hsame a b ((hiff a ha).1 h1) ((hiff b hb).1 h2))) with he | ⟨p, hp, h1, he⟩
  · simp only [Function.comp_def]
    rw [he, h0]
    · simp [total]
    · intro p hp hs
      have := List.filter_eq_nil_iff.1 he p hp
      refine this ((hiff p hp).2 ?_)
      obtain ⟨k1, k2⟩ := hk p hp
      have e1 : ∀ {a b}, a ∈ cols → b ∈ cols → a.ptrEq b = true → b = a := fun ha hb h' =>
        (((hc.good _ ha).ptrEq_iff (hc.good _ hb)).1 h').symm
      rcases hs with ⟨a, b⟩ | ⟨a, b⟩
      · exact .inl ⟨e1 hxm k1 a, e1 hym k2 b⟩
      · exact .inr ⟨e1 hym k1 b, e1 hxm k2 a⟩
  · simp only [Function.comp_def]
    rw [he, List.map_singleton, total_single, hg2, hv p hp]
    rcases (hiff p hp).1 h1 with ⟨a, b⟩ | ⟨a, b⟩
    · rw [a, b]
    · rw [a, b, hD]

theorem hess_lower {es : List (Node (Option ℝ) × Node (Option ℝ) × Node (Option ℝ))} {r c : Nat} :
    ∀ t ∈ (valMat r c (hessP cols es) σ).triplets, t.2.1 ≤ t.1 := by
  intro t ht
  rw [valMat_triplets] at ht
  obtain ⟨e, he, rfl⟩ := List.mem_map.1 ht
  obtain ⟨p, -, rfl⟩ := List.mem_map.1 he
  simp only
  split <;> simp only <;> omega

end

section
variable {H : HashOrder} {h : Heap (Option ℝ)} {n m : Nat} {cols : List (Node (Option ℝ))} {comp : ModelComp (Option ℝ)}
  {mod : Model (Option ℝ)} {e : Node (Option ℝ)} {ps : List (Piece (Option ℝ))} {xes : List (Node (Option ℝ) × Option ℝ)}
  {ves : List (Node (Option ℝ) × Nat)} {sp : StdProb (Option ℝ)} {σ : Env (Option ℝ)}

/-- The objective gradient. -/
theorem SpFacts.gphi_entry (hf : SpFacts H .noSelf h n m mod comp e ps cols xes ves sp) (hd : Defined e σ) {x : Node (Option ℝ)}
    (hx : x ∈ cols) : valAt (comp.obj.gphi.map fun e => (e.1, e.2.evaluate σ)) zero x = some (numD σ x e) := by
  obtain ⟨k, k', hk⟩ := hf.mf.objComp
  refine grad_entry hf.cok hf.cmpOk.gphi (D := fun x => numD σ x e) (gphi_val hf.mf.goodE hk hd) hx fun hno => ?_
  refine numD_absent fun y hy => ?_
  rw [← Bool.not_eq_true]
  intro hyx
  have hgy := hf.mf.goodE.sub hy
  have : y = x := (hgy.ptrEq_iff (hf.cok.good _ hx)).1 hyx
  subst this
  obtain ⟨z, hz, hzy⟩ := (stdProperties_keys e).2.2 y (hf.cok.var _ hx) hy
  have hz' := (stdComponents_gphi hk).mem_iff.2 hz
  obtain ⟨q, hq, rfl⟩ := List.mem_map.1 hz'
  exact hno q hq (((hf.cok.good _ (hf.cmpOk.gphi q hq)).ptrEq_iff (hf.cok.good _ hx)).1 hzy)

theorem SpFacts.hphi_entry (hf : SpFacts H .noSelf h n m mod comp e ps cols xes ves sp) (hd : Defined e σ) {x y : Node (Option ℝ)}
    {i j : Nat} (hx : cols[i]? = some x) (hy : cols[j]? = some y) (hij : j ≤ i) {s t : ℝ} (hs : σ x.id = some (some s))
    (ht : σ y.id = some (some t)) (r c : Nat) :
    (valMat r c (hessP cols comp.obj.hphi) σ).dense i j = some (numD2 σ x y e) := by
  obtain ⟨k, k', hk⟩ := hf.mf.objComp
  obtain ⟨h1, h2⟩ := hess_val hf.mf.goodE hk hf.mf.goodG
  refine hess_entry hf.cok hf.cmpOk.hphi h1 (D := fun x y => numD2 σ x y e) (fun x y => numD2_symm σ x y e) (h2 hd).1 hx hy hij ?_ r c
  intro hno
  exact (h2 hd).2 x y (hf.cok.var _ (List.mem_of_getElem? hx)) (hf.cok.var _ (List.mem_of_getElem? hy)) hno s t hs ht

theorem MFacts.slackCol (hf : SpFacts H .noSelf h n m mod comp e ps cols xes ves sp) {p : Piece (Option ℝ)} (hp : p ∈ ps)
    {s : Node (Option ℝ)} (hs : p.slack = some s) : s ∈ cols := (hf.mem s).2 (.inr (List.mem_filterMap.2 ⟨p, hp, hs⟩))

theorem SpFacts.pieceCol (hf : SpFacts H .noSelf h n m mod comp e ps cols xes ves sp) {p : Piece (Option ℝ)} (hp : p ∈ ps)
    {x : Node (Option ℝ)} (hv : x.isVar = true) (ho : Occurs x p.exp) : x ∈ cols := (hf.mem x).2 (.inl ⟨hv, .inr ⟨p, hp, ho⟩⟩)

/-- The Jacobian of a nonlinear row. -/
theorem SpFacts.jac_entry (hf : SpFacts H .noSelf h n m mod comp e ps cols xes ves sp) {p : Piece (Option ℝ)} (hp : p ∈ ps)
    (hnl : p.isNl = true) (hd : Defined p.exp σ) {x : Node (Option ℝ)} {i : Nat} (hx : cols[i]? = some x) (r c : Nat) :
    (valMat r c (jacP cols comp.constr.j) σ).dense p.jrow i = some (numD σ x p.exp - slackD x p.slack) := by
  obtain ⟨n', m', hn', -, hok⟩ := hf.mf.piece hp
  obtain ⟨k, k', hk⟩ := hok.comp
  obtain ⟨kc, hkc, hch⟩ := hf.mf.chain
  have hxm := List.mem_of_getElem? hx
  have hjk : ∀ q ∈ p.jac, q.1 ∈ cols := fun q hq => by
    rcases hok.jacKeys hq with ⟨a, b⟩ | a
    · exact hf.pieceCol hp a b
    · exact MFacts.slackCol hf hp a
  have hgn : NodupP (keysN p.comp.gphi) := (stdProperties_keys p.exp).1.perm (stdComponents_gphi hk).symm
  have hgk : ∀ q ∈ p.comp.gphi, mod.HasVar q.1 := fun q hq => hf.mf.pieceVar hp (hok.gphiKeys hq).1 (hok.gphiKeys hq).2
  have hgs : ∀ q ∈ p.comp.gphi, ∀ s, p.slack = some s → s.id ≠ q.1.id := fun q hq s hs => by
    have := (hf.mf.slack_new (List.mem_filterMap.2 ⟨p, hp, hs⟩) (hgk q hq)).2.2
    intro hid
    refine this (Good.eq_of_id (hf.cok.good _ ?_) (hf.cok.good _ ?_) hid.symm)
    · exact hf.pieceCol hp (hok.gphiKeys hq).1 (hok.gphiKeys hq).2
    · exact MFacts.slackCol hf hp hs
  have habs : ∀ s, p.slack = some s → numD σ s p.exp = 0 := fun s hs => by
    refine numD_absent fun y hy => ?_
    rw [← Bool.not_eq_true]
    intro hys
    have hsc := MFacts.slackCol hf hp hs
    have : y = s := ((hok.goodExp.sub hy).ptrEq_iff (hf.cok.good _ hsc)).1 hys
    subst this
    exact (hf.mf.slack_new (List.mem_filterMap.2 ⟨p, hp, hs⟩) (hf.mf.pieceVar hp (hf.cok.var _ hsc) hy)).2.2 rfl
  have hjn : NodupP (keysN p.jac) := by
    unfold Piece.jac
    split
    · exact hgn
    · rename_i s f m1 hkd
      have hs : p.slack = some s := by simp [Piece.slack, hkd]
      unfold keysN NodupP
      rw [List.map_append, List.pairwise_append]
      refine ⟨hgn, by simp, ?_⟩
      intro a ha b hb
      obtain ⟨q, hq, rfl⟩ := List.mem_map.1 ha
      simp only [List.map_cons, List.map_nil, List.mem_singleton] at hb
      subst hb
      exact (hf.mf.slack_new (List.mem_filterMap.2 ⟨p, hp, hs⟩) (hgk q hq)).1
    · simp [keysN, NodupP]
  have hval : ∀ q ∈ p.jac, q.2.evaluate σ = some (numD σ q.1 p.exp - slackD q.1 p.slack) := by
    intro q hq
    unfold Piece.jac at hq
    split at hq
    · rename_i hkd
      have hs : p.slack = none := by simp [Piece.slack, hkd]
      rw [gphi_val hok.goodExp hk hd q hq, hs]
      simp [slackD]
    · rename_i s f m1 hkd
      have hs : p.slack = some s := by simp [Piece.slack, hkd]
      rcases List.mem_append.1 hq with hq | hq
      · rw [gphi_val hok.goodExp hk hd q hq, hs]
        simp only [slackD, if_neg (hgs q hq s hs), sub_zero]
      · simp only [List.mem_singleton] at hq
        subst hq
        obtain ⟨-, -, i', rfl⟩ := hok.nlIneq s f m1 hkd
        simp [Node.evaluate, hs, slackD, habs s hs]
    · simp at hq
  rw [valMat_dense]
  have e1 : (jacP cols comp.constr.j).filter (fun e => e.1 == p.jrow && e.2.1 == i) =
      (p.jac.filter fun q => colOf cols q.1 == i).map fun q => (p.jrow, colOf cols q.1, q.2) := by
    have e2 : (jacP cols comp.constr.j).filter (fun e => e.1 == p.jrow && e.2.1 == i) =
        ((comp.constr.j.filter fun e => e.1 == p.jrow).filter fun e => colOf cols e.2.1 == i).map fun e => (e.1, colOf cols e.2.1, e.2.2) := by
      unfold jacP
      rw [List.filter_map, List.filter_filter]
      simp only [Function.comp_def]
      congr 1
      exact List.filter_congr fun e _ => by rw [Bool.and_comm]
    rw [e2, hf.mf.j_eq, hch.jrow_entries hp hnl, List.filter_map, List.map_map]
    simp only [Function.comp_def]
  rw [e1, List.map_map]
  refine Verif.jac_entry hf.cok hjk hjn (D := fun x => numD σ x p.exp - slackD x p.slack) hval hx fun hno => ?_
  have hsl : slackD x p.slack = 0 := by
    cases hs : p.slack with
    | none => rfl
    | some s =>
      simp only [slackD]
      rw [if_neg]
      intro hid
      have hsx : s = x := Good.eq_of_id (hf.cok.good _ (MFacts.slackCol hf hp hs)) (hf.cok.good _ hxm) hid
      cases hkd : p.kind with
      | nlIneq s' f m1 =>
        simp only [Piece.slack, hkd, Option.some.injEq] at hs
        refine hno (s', m1) ?_ (by rw [hs, hsx])
        simp [Piece.jac, hkd]
      | _ => simp [Piece.isNl, Piece.slack, hkd] at hnl hs
  rw [hsl, sub_zero]
  refine numD_absent fun y hy => ?_
  rw [← Bool.not_eq_true]
  intro hyx
  have : y = x := ((hok.goodExp.sub hy).ptrEq_iff (hf.cok.good _ hxm)).1 hyx
  subst this
  obtain ⟨z, hz, hzy⟩ := (stdProperties_keys p.exp).2.2 y (hf.cok.var _ hxm) hy
  have hz' := (stdComponents_gphi hk).mem_iff.2 hz
  obtain ⟨q, hq, rfl⟩ := List.mem_map.1 hz'
  have hq' : q ∈ p.jac := by
    cases hkd : p.kind with
    | nlEq => simp [Piece.jac, hkd, hq]
    | nlIneq s' f m1 => simp [Piece.jac, hkd, hq]
    | _ => simp [Piece.isNl, hkd] at hnl
  exact hno q hq' (((hf.cok.good _ (hjk q hq')).ptrEq_iff (hf.cok.good _ hxm)).1 hzy)

theorem SpFacts.hess_entry (hf : SpFacts H .noSelf h n m mod comp e ps cols xes ves sp) {p : Piece (Option ℝ)} (hp : p ∈ ps)
    (hd : Defined p.exp σ) {x y : Node (Option ℝ)}
    {i j : Nat} (hx : cols[i]? = some x) (hy : cols[j]? = some y) (hij : j ≤ i) {s t : ℝ} (hs : σ x.id = some (some s))
    (ht : σ y.id = some (some t)) (r c : Nat) :
    (valMat r c (hessP cols p.comp.hphi) σ).dense i j = some (numD2 σ x y p.exp) := by
  obtain ⟨n', m', hn', -, hok⟩ := hf.mf.piece hp
  obtain ⟨k, k', hk⟩ := hok.comp
  obtain ⟨h1, h2⟩ := hess_val hok.goodExp hk hok.goodG
  refine Verif.hess_entry hf.cok ?_ h1 (D := fun x y => numD2 σ x y p.exp) (fun x y => numD2_symm σ x y p.exp) (h2 hd).1 hx hy hij ?_ r c
  · intro q hq
    have := hok.hphiKeys hq
    exact ⟨hf.pieceCol hp this.1.1 this.1.2, hf.pieceCol hp this.2.1 this.2.2⟩
  intro hno
  exact (h2 hd).2 x y (hf.cok.var _ (List.mem_of_getElem? hx)) (hf.cok.var _ (List.mem_of_getElem? hy)) hno s t hs ht

end

end Verif
