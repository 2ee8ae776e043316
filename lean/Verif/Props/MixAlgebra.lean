import Verif.Props.Tabulate
import Verif.Props.PopMoments

/-!
# C74: a mixture depends only on the total weight of each component

`Mix.init cube cs ws` is `Mixture(cube, cs, ws)`. `totalWeight cs ws ch` is the sum of the weights with which `ch` occurs. The order of
the members, and whether a component occurs once or several times, makes no difference. `Same`, `SameWhere`: see C73.
-/

open scoped Classical

noncomputable section

namespace PKM
open Np Component

/-- Sum of the weights with which the component `ch` occurs in the list. -/
def totalWeight (cs : List Child) (ws : List ℝ) (ch : Child) : ℝ := (((cs.zip ws).filter (fun p => p.1 = ch)).map Prod.snd).sum

theorem totalWeight_cons (c : Child) (x : ℝ) (cs : List Child) (ws : List ℝ) (ch : Child) :
    totalWeight (c :: cs) (x :: ws) ch = (if c = ch then x else 0) + totalWeight cs ws ch := by
  unfold totalWeight
  by_cases e : c = ch <;> simp [e]

theorem sum_totalWeight (F : Child → ℝ) (S : Finset Child) : ∀ (cs : List Child) (ws : List ℝ), cs.length = ws.length → (∀ ch ∈ cs, ch ∈ S) →
    ((cs.zip ws).map fun p => p.2 * F p.1).sum = ∑ ch ∈ S, totalWeight cs ws ch * F ch
  | [], [], _, _ => by simp [totalWeight]
  | c :: cs, x :: ws, hl, hS => by
    have ih := sum_totalWeight F S cs ws (by simpa using hl) fun ch h => hS ch (List.mem_cons_of_mem _ h)
    simp only [totalWeight_cons, add_mul, Finset.sum_add_distrib, ite_mul, zero_mul]
    rw [List.zip_cons_cons, List.map_cons, List.sum_cons, ih, Finset.sum_ite_eq, if_pos (hS c List.mem_cons_self)]

theorem sum_fin_zip (F : Child → ℝ) : ∀ (cs : List Child) (ws : List ℝ), cs.length = ws.length → ∀ d : Child,
    ∑ i : Fin ws.length, ws.getD i 0 * F (cs.getD i d) = ((cs.zip ws).map fun p => p.2 * F p.1).sum
  | [], [], _, _ => by simp
  | c :: cs, x :: ws, hl, d => by
    have ih := sum_fin_zip F cs ws (by simpa using hl) d
    show ∑ i : Fin (ws.length + 1), _ = _
    rw [Fin.sum_univ_succ]
    simpa using ih

theorem totalWeight_pos {ch : Child} : ∀ {cs : List Child} {ws : List ℝ}, cs.length = ws.length → (∀ x ∈ ws, 0 < x) →
    (0 < totalWeight cs ws ch ↔ ch ∈ cs) ∧ 0 ≤ totalWeight cs ws ch
  | [], [], _, _ => by simp [totalWeight]
  | c :: cs, x :: ws, hl, hw => by
    have ih := totalWeight_pos (ch := ch) (cs := cs) (ws := ws) (by simpa using hl) fun y hy => hw y (List.mem_cons_of_mem _ hy)
    have hx := hw x List.mem_cons_self
    rw [totalWeight_cons]
    by_cases e : c = ch
    · simp only [e, if_true, List.mem_cons, true_or, iff_true]
      exact ⟨by linarith [ih.2], by linarith [ih.2]⟩
    · have e' : ch ≠ c := fun h => e h.symm
      simp only [e, if_false, zero_add, List.mem_cons, e', false_or]
      exact ih

variable {g : Grid} {L : ℕ → ℕ → ℝ} {cube cube' : IFUCube} {cs cs' : List Child} {ws ws' : List ℝ} {m m' : Mix} {P : Child → Pop}

/-- What the constructor accepted. -/
theorem mixInit_ok (h : Mix.init cube cs ws = .ok m) : m = ⟨cube, cs, ws, none⟩ ∧ cs.length = ws.length ∧ (∀ x ∈ ws, 0 < x) ∧ ws ≠ [] := by
  have e := C28_constructor cube cs ws
  simp only at e
  by_cases hbad : cs.length ≠ ws.length ∨ (∃ w ∈ ws, w ≤ 0) ∨ 1 / 10 ^ 8 + 1 / 10 ^ 5 < |ws.sum - 1|
  · rw [e.1 hbad] at h; cases h
  · rw [e.2 hbad] at h
    simp only [not_or, not_exists, not_and, not_lt, not_le, not_not] at hbad
    obtain ⟨h1, h2, h3⟩ := hbad
    injection h with h
    refine ⟨h.symm, h1, h2, ?_⟩
    rintro rfl
    norm_num at h3

/-- The population of member `i`. -/
def popAt (P : Child → Pop) (cs : List Child) (i : ℕ) : Pop := (cs[i]?).elim noPop P

theorem MixOf.of_init (h : Mix.init cube cs ws = .ok m) (hcube : CubeIs cube g)
    (hlight : IsArr g ['t','z'] cube.ssps.lightWeights (fun c => .fin (L c.t c.z))) (hP : ∀ ch ∈ cs, IsMember g L ch (P ch)) :
    MixOf m g ws.length (fun i => ws.getD i 0) (popAt P cs) L := by
  obtain ⟨rfl, h1, h2, h3⟩ := mixInit_ok h
  refine ⟨List.length_pos_iff.2 h3, hcube, hlight, h1, ?_, fun i hi => ?_, fun i hi => ?_⟩
  · refine List.ext_getElem (by simp) fun i hi hi' => ?_
    simp [List.getD, hi]
  · simp only [List.getD, List.getElem?_eq_getElem hi, Option.getD_some]
    exact h2 _ (List.getElem_mem hi)
  · simp only [popAt, List.getElem?_eq_getElem hi, Option.elim_some]
    exact hP _ (List.getElem_mem hi)

theorem sum_members (F : Pop → ℝ) (P : Child → Pop) (hl : cs.length = ws.length) :
    ∑ i : Fin ws.length, ws.getD i 0 * F (popAt P cs i) = ((cs.zip ws).map fun p => p.2 * F (P p.1)).sum := by
  rcases cs with _ | ⟨d, cs⟩
  · have : ws = [] := List.length_eq_zero_iff.1 hl.symm
    subst this
    simp
  · rw [← sum_fin_zip (fun ch => F (P ch)) _ _ hl d]
    refine Finset.sum_congr rfl fun i _ => ?_
    have hi : (i : ℕ) < (d :: cs).length := lt_of_lt_of_eq i.2 hl.symm
    simp only [popAt, List.getD_eq_getElem?_getD, List.getElem?_eq_getElem hi, Option.elim_some, Option.getD_some]

/-- Mixtures with the same total weights have the same stars. -/
theorem mixPop_total (P : Child → Pop) (h1 : cs.length = ws.length) (h2 : cs'.length = ws'.length)
    (hw : ∀ ch, totalWeight cs ws ch = totalWeight cs' ws' ch) :
    mixPop ws.length (fun i => ws.getD i 0) (popAt P cs) = mixPop ws'.length (fun i => ws'.getD i 0) (popAt P cs') := by
  have key : ∀ F : Pop → ℝ, ∑ i : Fin ws.length, ws.getD i 0 * F (popAt P cs i) = ∑ i : Fin ws'.length, ws'.getD i 0 * F (popAt P cs' i) := by
    intro F
    rw [sum_members F P h1, sum_members F P h2,
      sum_totalWeight (fun ch => F (P ch)) (cs.toFinset ∪ cs'.toFinset) _ _ h1 fun ch h => by simp [h],
      sum_totalWeight (fun ch => F (P ch)) (cs.toFinset ∪ cs'.toFinset) _ _ h2 fun ch h => by simp [h]]
    simp only [hw]
  unfold mixPop
  congr 1
  · funext c; exact key fun q => q.joint c
  · funext φ c; exact key fun q => q.vel φ c

/-- Both mixtures have the same set of members. -/
theorem same_members (h : Mix.init cube cs ws = .ok m) (h' : Mix.init cube' cs' ws' = .ok m')
    (hw : ∀ ch, totalWeight cs ws ch = totalWeight cs' ws' ch) (ch : Child) : ch ∈ cs ↔ ch ∈ cs' := by
  obtain ⟨-, h1, h2, -⟩ := mixInit_ok h
  obtain ⟨-, h1', h2', -⟩ := mixInit_ok h'
  rw [← (totalWeight_pos h1 h2).1, ← (totalWeight_pos h1' h2').1, hw]

/-- All 65 distributions of a mixture, by mass and by light, as probability and density, depend only on the total weight of each component. -/
theorem C74_distributions (h : Mix.init cube cs ws = .ok m) (h' : Mix.init cube' cs' ws' = .ok m') (hc : CubeIs cube g) (hc' : CubeIs cube' g)
    (hl : IsArr g ['t','z'] cube.ssps.lightWeights (fun c => .fin (L c.t c.z)))
    (hl' : IsArr g ['t','z'] cube'.ssps.lightWeights (fun c => .fin (L c.t c.z)))
    (hP : ∀ ch ∈ cs, IsMember g L ch (P ch)) (hw : ∀ ch, totalWeight cs ws ch = totalWeight cs' ws' ch)
    (density lw : Bool) (hs : lw = true → ∀ ch ∈ cs, (P ch).Shines g L) :
    (∀ w ∈ marginals, Same (Mix.getP m w true density lw) (Mix.getP m' w true density lw) g w) ∧
    ∀ a b, (a, b) ∈ conditionals → Same (Mix.getP m (condStr a b) true density lw) (Mix.getP m' (condStr a b) true density lw) g (condStr a b) := by
  have hM := MixOf.of_init h hc hl hP
  have hM' := MixOf.of_init h' hc' hl' (P := P) fun ch hch => hP ch ((same_members h h' hw ch).2 hch)
  have hE := mixPop_total P (mixInit_ok h).2.1 (mixInit_ok h').2.1 hw
  have hS : lw = true → (mixPop ws.length (fun i => ws.getD i 0) (popAt P cs)).Shines g L := fun e =>
    mix_shines hM fun i hi => by
      have hi' : i < cs.length := (mixInit_ok h).2.1 ▸ hi
      simp only [popAt, List.getElem?_eq_getElem hi', Option.elim_some]
      exact hs e _ (List.getElem_mem hi')
  refine ⟨fun w hw => ?_, fun a b hab => ?_⟩
  · obtain ⟨p, h1, h2, h3⟩ := C65_marginals hM density lw hS w hw
    obtain ⟨p', k1, k2, k3⟩ := C65_marginals hM' density lw (fun e => hE ▸ hS e) w hw
    exact Same.of_gives ⟨p, h1, h2, h3⟩ ⟨p', k1, k2, k3⟩ fun c _ => by rw [hE]
  · obtain ⟨p, h1, h2, h3⟩ := C65_conditionals hM density lw hS a b hab
    obtain ⟨p', k1, k2, k3⟩ := C65_conditionals hM' density lw (fun e => hE ▸ hS e) a b hab
    refine ⟨p, p', h1, k1, by rw [List.nil_append, h2, shapeOf_condStr], by rw [List.nil_append, k2, shapeOf_condStr], fun c hc _ => ?_⟩
    rw [List.nil_append, coords_condStr, h3 c hc, k3 c hc, hE]

theorem sum_children {F : ℕ → ℝ} (G : Child → ℝ) (hl : cs.length = ws.length) (hF : ∀ (i : ℕ) (hi : i < cs.length), F i = G cs[i]) :
    ∑ i : Fin ws.length, ws.getD i 0 * F i = ((cs.zip ws).map fun p => p.2 * G p.1).sum := by
  rcases cs with _ | ⟨d, cs⟩
  · have : ws = [] := List.length_eq_zero_iff.1 hl.symm
    subst this
    simp
  · rw [← sum_fin_zip G _ _ hl d]
    refine Finset.sum_congr rfl fun i _ => ?_
    have hi : (i : ℕ) < (d :: cs).length := lt_of_lt_of_eq i.2 hl.symm
    simp only [hF i hi, List.getD_eq_getElem?_getD, List.getElem?_eq_getElem hi, Option.getD_some]

/-- Weighted sums over the members depend only on the total weights. -/
theorem sum_total {F F' : ℕ → ℝ} (G : Child → ℝ) (h1 : cs.length = ws.length) (h2 : cs'.length = ws'.length)
    (hw : ∀ ch, totalWeight cs ws ch = totalWeight cs' ws' ch) (hF : ∀ (i : ℕ) (hi : i < cs.length), F i = G cs[i])
    (hF' : ∀ (i : ℕ) (hi : i < cs'.length), F' i = G cs'[i]) :
    ∑ i : Fin ws.length, ws.getD i 0 * F i = ∑ i : Fin ws'.length, ws'.getD i 0 * F' i := by
  rw [sum_children G h1 hF, sum_children G h2 hF',
    sum_totalWeight G (cs.toFinset ∪ cs'.toFinset) _ _ h1 fun ch h => by simp [h],
    sum_totalWeight G (cs.toFinset ∪ cs'.toFinset) _ _ h2 fun ch h => by simp [h]]
  simp only [hw]

theorem popAt_eq (P : Child → Pop) {i : ℕ} (hi : i < cs.length) : popAt P cs i = P cs[i] := by
  simp only [popAt, List.getElem?_eq_getElem hi, Option.elim_some]

/-- Sums over the members, weighted by their shares of the light. -/
theorem sum_shares {F F' : ℕ → ℝ} (G : Child → ℝ) (P : Child → Pop) (lw : Bool) (w : PyStr) (h1 : cs.length = ws.length) (h2 : cs'.length = ws'.length)
    (hw : ∀ ch, totalWeight cs ws ch = totalWeight cs' ws' ch) (hF : ∀ (i : ℕ) (hi : i < cs.length), F i = G cs[i])
    (hF' : ∀ (i : ℕ) (hi : i < cs'.length), F' i = G cs'[i]) :
    ∑ i : Fin ws.length, shareIn g L lw ws.length (fun i => ws.getD i 0) (popAt P cs) w i * F i =
      ∑ i : Fin ws'.length, shareIn g L lw ws'.length (fun i => ws'.getD i 0) (popAt P cs') w i * F' i := by
  unfold shareIn
  cases lw with
  | false => simpa using sum_total G h1 h2 hw hF hF'
  | true =>
    simp only [if_true]
    have hT : ∑ k : Fin ws.length, ws.getD k 0 * (popAt P cs k).lightOf g L w = ∑ k : Fin ws'.length, ws'.getD k 0 * (popAt P cs' k).lightOf g L w :=
      sum_total (F := fun k => (popAt P cs k).lightOf g L w) (F' := fun k => (popAt P cs' k).lightOf g L w)
        (fun ch => (P ch).lightOf g L w) h1 h2 hw (fun i hi => by rw [popAt_eq P hi]) (fun i hi => by rw [popAt_eq P hi])
    have e : ∀ a b c d : ℝ, a * b / c * d = a * (b * d) / c := fun a b c d => by ring
    simp only [e, ← Finset.sum_div]
    rw [hT]
    congr 1
    exact sum_total (F := fun k => (popAt P cs k).lightOf g L w * F k) (F' := fun k => (popAt P cs' k).lightOf g L w * F' k)
      (fun ch => (P ch).lightOf g L w * G ch) h1 h2 hw (fun i hi => by rw [popAt_eq P hi, hF i hi]) (fun i hi => by rw [popAt_eq P hi, hF' i hi])

/-- The cell of whose mean a parametric component takes the moments of the velocity given age, pixel and metallicity (see C66). -/
def centreOf (q : Char) (b : PyStr) (c : Cell) : Cell := if q = 'v' ∧ b = ['t','x','z'] then { c with z := 0 } else c

/-- So do the means where all members have stars. -/
theorem C74_means (h : Mix.init cube cs ws = .ok m) (h' : Mix.init cube' cs' ws' = .ok m') (hc : CubeIs cube g) (hc' : CubeIs cube' g)
    (hl : IsArr g ['t','z'] cube.ssps.lightWeights (fun c => .fin (L c.t c.z)))
    (hl' : IsArr g ['t','z'] cube'.ssps.lightWeights (fun c => .fin (L c.t c.z)))
    (hP : ∀ ch ∈ cs, IsMember g L ch (P ch)) (hw : ∀ ch, totalWeight cs ws ch = totalWeight cs' ws' ch)
    (lw : Bool) (hs : lw = true → ∀ ch ∈ cs, (P ch).Shines g L) (q : Char) (hq : q ∈ ['t','v','x','y','z']) (b : PyStr)
    (hb : ValidPair (varOf q) b) :
    SameWhere (fun c => ∀ ch ∈ cs, (P ch).amount g L lw b c ≠ 0) (compShape (varOf q)) (compIdx q)
      (Mix.getMean m (distStr (varOf q) b) lw) (Mix.getMean m' (distStr (varOf q) b) lw) g b := by
  have hM := MixOf.of_init h hc hl hP
  have hM' := MixOf.of_init h' hc' hl' (P := P) fun ch hch => hP ch ((same_members h h' hw ch).2 hch)
  have e1 := (mixInit_ok h).2.1
  have e2 := (mixInit_ok h').2.1
  have hE := mixPop_total P e1 e2 hw
  have at1 : ∀ Q : Pop → Prop, (∀ ch ∈ cs, Q (P ch)) → ∀ i < ws.length, Q (popAt P cs i) := fun Q hQ i hi => by
    rw [popAt_eq P (e1 ▸ hi : i < cs.length)]
    exact hQ _ (List.getElem_mem _)
  have at2 : ∀ Q : Pop → Prop, (∀ ch ∈ cs, Q (P ch)) → ∀ i < ws'.length, Q (popAt P cs' i) := fun Q hQ i hi => by
    rw [popAt_eq P (e2 ▸ hi : i < cs'.length)]
    exact hQ _ ((same_members h h' hw _).2 (List.getElem_mem _))
  obtain ⟨q1, q2, -⟩ := quantity_facts hq
  obtain ⟨r, F, r1, r2, r3⟩ := hM.mean_is (fun e => at1 (fun q => q.Shines g L) (hs e)) hb q1
  obtain ⟨s, F', s1, s2, s3⟩ := hM'.mean_is (fun e => at2 (fun q => q.Shines g L) (hs e)) hb q1
  refine ⟨r, s, r1, s1, r2.1, s2.1, fun c hc h0 => ?_⟩
  rw [r2.2 q q2 c hc, s2.2 q q2 c hc, r3 q q2 c hc (at1 (fun q => q.amount g L lw b c ≠ 0) h0), s3 q q2 c hc (at2 (fun q => q.amount g L lw b c ≠ 0) h0), hE]
  unfold mixMean
  rw [hE]
  simp only [mul_assoc]
  rw [sum_shares (F := fun i => (popAt P cs i).marginal g L lw b c * (popAt P cs i).expect g L lw b q (fun x => x) c)
    (F' := fun i => (popAt P cs' i).marginal g L lw b c * (popAt P cs' i).expect g L lw b q (fun x => x) c)
    (fun ch => (P ch).marginal g L lw b c * (P ch).expect g L lw b q (fun x => x) c) P lw _ e1 e2 hw
    (fun i hi => by rw [popAt_eq P hi]) (fun i hi => by rw [popAt_eq P hi])]

theorem IsMember1.says' {ch : Child} {p : Pop} {lw : Bool} {q : Char} {b : PyStr} (h : IsMember1 g L ch p) (hlw : lw = true → 0 < p.lightOf g L ['t','x','z'])
    (hab : ValidPair (varOf q) b) (h1 : (varOf q).length = 1) (hqv : varOf q = ['v'] ↔ q = 'v') :
    MemberSays ch p g L lw (varOf q) b (fun c => c) True ∨ MemberSays ch p g L lw (varOf q) b (centreOf q b) True := by
  cases h with
  | plain cube st ρ ybar h e e' => subst e e'; exact .inl (plain_says ybar h hlw hab h1)
  | parametric p m ybar h hf e e' =>
    subst e e'
    have := param_says ybar h hlw hab h1
    simp only [hqv] at this
    exact .inr ⟨this.mean, fun _ => this.ncm hf⟩

/-- So do the central moments of any order where all members have stars. (For the velocity given age, pixel and metallicity: if they also
have stars of the lowest metallicity there.) -/
theorem C74_central (h : Mix.init cube cs ws = .ok m) (h' : Mix.init cube' cs' ws' = .ok m') (hc : CubeIs cube g) (hc' : CubeIs cube' g)
    (hl : IsArr g ['t','z'] cube.ssps.lightWeights (fun c => .fin (L c.t c.z)))
    (hl' : IsArr g ['t','z'] cube'.ssps.lightWeights (fun c => .fin (L c.t c.z)))
    (hP : ∀ ch ∈ cs, IsMember g L ch (P ch)) (hP1 : ∀ ch ∈ cs, IsMember1 g L ch (P ch))
    (hw : ∀ ch, totalWeight cs ws ch = totalWeight cs' ws' ch)
    (lw : Bool) (hs : lw = true → ∀ ch ∈ cs, (P ch).Shines g L) (q : Char) (hq : q ∈ ['t','v','x','y','z']) (b : PyStr)
    (hb : ValidPair (varOf q) b) (j : ℕ) :
    SameWhere (fun c => ∀ ch ∈ cs, (P ch).amount g L lw b c ≠ 0 ∧ (P ch).amount g L lw b (centreOf q b c) ≠ 0) (compShape (varOf q)) (compIdx q)
      (Mix.getCentralMoment m (distStr (varOf q) b) j lw) (Mix.getCentralMoment m' (distStr (varOf q) b) j lw) g b := by
  have hM := MixOf.of_init h hc hl hP
  have hM' := MixOf.of_init h' hc' hl' (P := P) fun ch hch => hP ch ((same_members h h' hw ch).2 hch)
  have e1 := (mixInit_ok h).2.1
  have e2 := (mixInit_ok h').2.1
  have hE := mixPop_total P e1 e2 hw
  have at1 : ∀ Q : Pop → Prop, (∀ ch ∈ cs, Q (P ch)) → ∀ i < ws.length, Q (popAt P cs i) := fun Q hQ i hi => by
    rw [popAt_eq P (e1 ▸ hi : i < cs.length)]
    exact hQ _ (List.getElem_mem _)
  have at2 : ∀ Q : Pop → Prop, (∀ ch ∈ cs, Q (P ch)) → ∀ i < ws'.length, Q (popAt P cs' i) := fun Q hQ i hi => by
    rw [popAt_eq P (e2 ▸ hi : i < cs'.length)]
    exact hQ _ ((same_members h h' hw _).2 (List.getElem_mem _))
  obtain ⟨q1, q2, -⟩ := quantity_facts hq
  have hqv : varOf q = ['v'] ↔ q = 'v' := by fin_cases hq <;> decide
  have hS1 := fun e => at1 (fun q => q.Shines g L) (hs e)
  have hS2 := fun e => at2 (fun q => q.Shines g L) (hs e)
  obtain ⟨r, F, r1, r2, r3⟩ := hM.mean_is hS1 hb q1
  obtain ⟨s, F', s1, s2, s3⟩ := hM'.mean_is hS2 hb q1
  have same := C74_means h h' hc hc' hl hl' hP hw lw hs q hq b hb
  have hcen : ∀ ch, ∃ cen : Cell → Cell, ch ∈ cs → (cen = (fun c => c) ∨ cen = centreOf q b) ∧ MemberSays ch (P ch) g L lw (varOf q) b cen True := by
    intro ch
    by_cases hch : ch ∈ cs
    · rcases (hP1 ch hch).says' (lw := lw) (fun e => hs e ch hch) hb q1 hqv with k | k
      · exact ⟨_, fun _ => ⟨.inl rfl, k⟩⟩
      · exact ⟨_, fun _ => ⟨.inr rfl, k⟩⟩
    · exact ⟨fun c => c, fun h => absurd h hch⟩
  choose cen hcen using hcen
  have hsay : ∀ (ds : List Child), (∀ ch ∈ ds, ch ∈ cs) → ∀ (i : ℕ) (hi : i < ds.length),
      MemberSays ds[i] (popAt P ds i) g L lw (varOf q) b ((ds[i]?).elim (fun c => c) cen) True := fun ds hd i hi => by
    rw [popAt_eq P hi, List.getElem?_eq_getElem hi, Option.elim_some]
    exact (hcen _ (hd _ (List.getElem_mem hi))).2
  have h1c : m.children = cs := by rw [(mixInit_ok h).1]
  have h2c : m'.children = cs' := by rw [(mixInit_ok h').1]
  obtain ⟨u, G, u1, u2, u3⟩ := hM.central_is hS1 hb q1 j r1 r2 (cen := fun i => (cs[i]?).elim (fun c => c) cen) (fun i hi => by
    simp only [h1c]; exact hsay cs (fun _ h => h) i (by simpa only [h1c] using hi))
  obtain ⟨u', G', v1, v2, v3⟩ := hM'.central_is hS2 hb q1 j s1 s2 (cen := fun i => (cs'[i]?).elim (fun c => c) cen) (fun i hi => by
    simp only [h2c]; exact hsay cs' (fun ch hch => (same_members h h' hw ch).2 hch) i (by simpa only [h2c] using hi))
  refine ⟨u, u', u1, v1, u2.1, v2.1, fun c hc h0 => ?_⟩
  have hmean : ∀ d, g.Has d → (∀ ch ∈ cs, (P ch).amount g L lw b d ≠ 0) → ∃ μ : ℝ, F q d = .fin μ ∧ F' q d = .fin μ := by
    intro d hd hd0
    obtain ⟨A, A', k1, k2, -, -, k3⟩ := same
    have k3 := k3 d hd hd0
    obtain rfl : A = r := by rw [r1] at k1; injection k1 with k1; exact k1.symm
    obtain rfl : A' = s := by rw [s1] at k2; injection k2 with k2; exact k2.symm
    rw [r2.2 q q2 d hd, s2.2 q q2 d hd] at k3
    have k4 := r3 q q2 d hd (at1 (fun q => q.amount g L lw b d ≠ 0) hd0)
    exact ⟨_, k4, k3 ▸ k4⟩
  have hcc : g.Has (centreOf q b c) := by
    unfold centreOf
    split
    · exact ⟨hc.1, hc.2.1, hc.2.2.1, hc.2.2.2.1, lt_of_le_of_lt (Nat.zero_le _) hc.2.2.2.2⟩
    · exact hc
  have hμ : ∀ ch, ∃ μ : ℝ, ch ∈ cs → F q (cen ch c) = .fin μ ∧ F' q (cen ch c) = .fin μ := by
    intro ch
    by_cases hch : ch ∈ cs
    · rcases (hcen ch hch).1 with e | e
      · obtain ⟨μ, k⟩ := hmean c hc fun ch hch => (h0 ch hch).1
        exact ⟨μ, fun _ => by rw [e]; exact k⟩
      · obtain ⟨μ, k⟩ := hmean _ hcc fun ch hch => (h0 ch hch).2
        exact ⟨μ, fun _ => by rw [e]; exact k⟩
    · exact ⟨0, fun h => absurd h hch⟩
  choose μ hμ using hμ
  have a1 := at1 (fun q => q.amount g L lw b c ≠ 0) fun ch hch => (h0 ch hch).1
  have a2 := at2 (fun q => q.amount g L lw b c ≠ 0) fun ch hch => (h0 ch hch).1
  rw [u2.2 q q2 c hc, v2.2 q q2 c hc, u3 q q2 c (fun i => (cs[i]?).elim 0 μ) hc a1 (fun i hi => by
      have hi : i < cs.length := e1 ▸ hi
      rw [List.getElem?_eq_getElem hi, Option.elim_some, Option.elim_some]
      exact (hμ _ (List.getElem_mem hi)).1), v3 q q2 c (fun i => (cs'[i]?).elim 0 μ) hc a2 (fun i hi => by
      have hi : i < cs'.length := e2 ▸ hi
      rw [List.getElem?_eq_getElem hi, Option.elim_some, Option.elim_some]
      exact (hμ _ ((same_members h h' hw _).2 (List.getElem_mem hi))).2), hE]
  have er : ∀ (us : List ℝ) (ds : List Child) (i : ℕ), us.getD i 0 * rwOf g L lw us.length (fun i => us.getD i 0) (popAt P ds) i =
      shareIn g L lw us.length (fun i => us.getD i 0) (popAt P ds) ['t','x','z'] i := fun us ds i =>
    rwOf_share (ω := fun i => us.getD i 0) i
  simp only [er]
  simp only [mul_assoc]
  rw [sum_shares (F := fun i => (popAt P cs i).num g L lw [] q (fun x => (x - (cs[i]?).elim 0 μ) ^ j) c / (popAt P cs i).norm g L lw [] c)
      (F' := fun i => (popAt P cs' i).num g L lw [] q (fun x => (x - (cs'[i]?).elim 0 μ) ^ j) c / (popAt P cs' i).norm g L lw [] c)
      (fun ch => (P ch).num g L lw [] q (fun x => (x - μ ch) ^ j) c / (P ch).norm g L lw [] c) P lw _ e1 e2 hw
      (fun i hi => by simp only [popAt_eq P hi, List.getElem?_eq_getElem hi, Option.elim_some])
      (fun i hi => by simp only [popAt_eq P hi, List.getElem?_eq_getElem hi, Option.elim_some]),
    sum_shares (F := fun i => (popAt P cs i).marginal g L lw b c * (popAt P cs i).expect g L lw b q (fun x => (x - (cs[i]?).elim 0 μ) ^ j) c)
      (F' := fun i => (popAt P cs' i).marginal g L lw b c * (popAt P cs' i).expect g L lw b q (fun x => (x - (cs'[i]?).elim 0 μ) ^ j) c)
      (fun ch => (P ch).marginal g L lw b c * (P ch).expect g L lw b q (fun x => (x - μ ch) ^ j) c) P lw _ e1 e2 hw
      (fun i hi => by simp only [popAt_eq P hi, List.getElem?_eq_getElem hi, Option.elim_some])
      (fun i hi => by simp only [popAt_eq P hi, List.getElem?_eq_getElem hi, Option.elim_some])]

/-- The order of the members does not matter, and a component may be split in two. -/
theorem C74_total_weights (cs cs' : List Child) (ws ws' : List ℝ) (ch d : Child) (x y : ℝ) (hl : cs.length = ws.length) :
    ((cs.zip ws).Perm (cs'.zip ws') → totalWeight cs ws d = totalWeight cs' ws' d) ∧
    totalWeight (ch :: ch :: cs) (x :: y :: ws) d = totalWeight (ch :: cs) ((x + y) :: ws) d ∧
    totalWeight (cs ++ [ch]) (ws ++ [x]) d = totalWeight (ch :: cs) (x :: ws) d := by
  refine ⟨fun hp => ?_, ?_, ?_⟩
  · unfold totalWeight
    exact ((hp.filter _).map _).sum_eq
  · simp only [totalWeight_cons]
    by_cases e : ch = d <;> simp [e]; ring
  · unfold totalWeight
    refine List.Perm.sum_eq (List.Perm.map _ (List.Perm.filter _ ?_))
    rw [List.zip_append hl]
    exact List.perm_append_singleton _ _

/-- The datacube depends only on the total weights, too, for any members with evaluated datacubes of equal shapes. -/
theorem C74_datacube (h : Mix.init cube cs ws = .ok m) (h' : Mix.init cube' cs' ws' = .ok m')
    (hw : ∀ ch, totalWeight cs ws ch = totalWeight cs' ws' ch) (Y : Child → List ℕ → ℝ) (s : List ℕ)
    (hY : ∀ ch ∈ cs, ∃ y, ch.ybar = some y ∧ y.shape = s ∧ ∀ j, InBox s j → y.get j = .fin (Y ch j)) :
    ∃ y y', Mix.evaluateYbar m = .ok { m with ybar := some y } ∧ Mix.evaluateYbar m' = .ok { m' with ybar := some y' } ∧
      y.shape = s ∧ y'.shape = s ∧ ∀ j, InBox s j → y.get j = y'.get j := by
  obtain ⟨rfl, e1, -, e0⟩ := mixInit_ok h
  obtain ⟨rfl, e1', -, e0'⟩ := mixInit_ok h'
  have key : ∀ (cu : IFUCube) (ds : List Child) (us : List ℝ), ds.length = us.length → us ≠ [] → (∀ ch ∈ ds, ch ∈ cs) →
      ∃ y, Mix.evaluateYbar ⟨cu, ds, us, none⟩ = .ok ⟨cu, ds, us, some y⟩ ∧ y.shape = s ∧
        ∀ j, InBox s j → y.get j = .fin ((ds.zip us).map fun p => p.2 * Y p.1 j).sum := by
    intro cu ds us hl h0 hin
    have hY' : ∀ i, ∃ y : Arr Num, ∀ hi : i < ds.length, ds[i].ybar = some y ∧ y.shape = s ∧ ∀ j, InBox s j → y.get j = .fin (Y ds[i] j) := by
      intro i
      by_cases hi : i < ds.length
      · obtain ⟨y, k⟩ := hY _ (hin _ (List.getElem_mem hi))
        exact ⟨y, fun _ => k⟩
      · exact ⟨full [] (.fin 0), fun h => absurd h hi⟩
    choose A hA using hY'
    have hne : ds ≠ [] := by rintro rfl; exact h0 (List.length_eq_zero_iff.1 hl.symm)
    obtain ⟨d, -, -⟩ := List.exists_cons_of_ne_nil hne
    obtain ⟨y, r1, r2, r3⟩ := C30_weighted_sum ⟨cu, ds, us, none⟩ A s hne hl fun i hi => ⟨(hA i hi).1, (hA i hi).2.1⟩
    refine ⟨y, r1, r2, fun j hj => ?_⟩
    rw [r3 j hj, ← sum_fin_zip (fun ch => Y ch j) ds us hl d, ← Num.fin_sum]
    refine Finset.sum_congr rfl fun i _ => ?_
    have hi : (i : ℕ) < ds.length := lt_of_lt_of_eq i.2 hl.symm
    rw [(hA i hi).2.2 j hj]
    simp [List.getD_eq_getElem?_getD, List.getElem?_eq_getElem hi]
  obtain ⟨y, a1, a2, a3⟩ := key cube cs ws e1 e0 fun _ h => h
  obtain ⟨y', b1, b2, b3⟩ := key cube' cs' ws' e1' e0' fun ch hch => (same_members h h' hw ch).2 hch
  refine ⟨y, y', a1, b1, a2, b2, fun j hj => ?_⟩
  rw [a3 j hj, b3 j hj, 
      sum_totalWeight (fun ch => Y ch j) (cs.toFinset ∪ cs'.toFinset) _ _ e1 fun ch h => by simp [h],
      sum_totalWeight (fun ch => Y ch j) (cs.toFinset ∪ cs'.toFinset) _ _ e1' fun ch h => by simp [h]]
  simp only [hw]

/-- The hypotheses can be met: a disc and a table with weights 1/4 and 3/4, and the same table first and last with weights 1/2 and 1/4. -/
example : ∃ (cube : IFUCube) (a b : Child) (m m' : Mix) (P : Child → Pop), Mix.init cube [a, b] [1 / 4, 3 / 4] = .ok m ∧ Mix.init cube [b, a, b] [1 / 2, 1 / 4, 1 / 4] = .ok m' ∧
    (∀ ch ∈ [a, b], IsMember demoGrid demoL ch (P ch) ∧ (P ch).Shines demoGrid demoL) ∧
    Same (Mix.getP m ['t','v','_','x'] true true true) (Mix.getP m' ['t','v','_','x'] true true true) demoGrid ['t','v','_','x'] ∧
    SameWhere (fun c => ∀ ch ∈ [a, b], (P ch).amount demoGrid demoL true ['x'] c ≠ 0) [] []
      (Mix.getMean m ['v','_','x'] true) (Mix.getMean m' ['v','_','x'] true) demoGrid ['x'] ∧
    SameWhere (fun c => ∀ ch ∈ [a, b], (P ch).amount demoGrid demoL true ['x'] c ≠ 0 ∧ (P ch).amount demoGrid demoL true ['x'] (centreOf 'v' ['x'] c) ≠ 0)
      [] [] (Mix.getCentralMoment m ['v','_','x'] 3 true) (Mix.getCentralMoment m' ['v','_','x'] 3 true) demoGrid ['x'] ∧
    ∃ c, demoGrid.Has c ∧ ∀ ch ∈ [a, b], (P ch).amount demoGrid demoL true ['x'] c ≠ 0 := by
  obtain ⟨cube, p, mi, t0, hP, -, ht, hpos, hmix⟩ := demoStarMix
  have hc : demoGrid.Has ⟨t0, 0, 0, 0, 0⟩ := by refine ⟨ht, ?_, ?_, ?_, ?_⟩ <;> simp [demoGrid, cubeGrid]
  obtain ⟨m, hi, hch, -, h, hl, h1⟩ := hmix _ _ hc hc
  set a := Component.child p.self none with ha
  set b := Component.child (baseSelf cube (demoStoredOf (twoStars ⟨t0, 0, 0, 0, 0⟩ ⟨t0, 0, 0, 0, 0⟩))) none with hb
  have hi' : Mix.init cube [b, a, b] [1 / 2, 1 / 4, 1 / 4] = .ok _ := (C28_constructor cube _ _).2 (by norm_num)
  have hm := (mixInit_ok hi).1
  subst hm
  let P : Child → Pop := fun ch => if ch = a then mi.pop demoGrid else tablePop demoGrid (twoStars ⟨t0, 0, 0, 0, 0⟩ ⟨t0, 0, 0, 0, 0⟩)
  have k0 : IsMember demoGrid demoL a _ := h.member 0 (by norm_num)
  have k1 : IsMember demoGrid demoL b _ := h.member 1 (by norm_num)
  have l0 : IsMember1 demoGrid demoL a _ := h1 0 (by norm_num)
  have l1 : IsMember1 demoGrid demoL b _ := h1 1 (by norm_num)
  have hA1 : ∀ ch ∈ [a, b], IsMember1 demoGrid demoL ch (P ch) := by
    intro ch hch
    by_cases e : ch = a
    · subst e; simp only [P, if_true]; exact l0
    · have : ch = b := by simpa [e] using hch
      subst this; simp only [P, if_neg e]; exact l1
  have hA : ∀ ch ∈ [a, b], IsMember demoGrid demoL ch (P ch) := by
    intro ch hch
    by_cases e : ch = a
    · subst e; simp only [P, if_true]; exact k0
    · have : ch = b := by simpa [e] using hch
      subst this; simp only [P, if_neg e]; exact k1
  have hS : ∀ ch ∈ [a, b], (P ch).Shines demoGrid demoL := by
    intro ch _
    by_cases e : ch = a
    · simp only [P, if_pos e]; exact hl 0 (by norm_num)
    · simp only [P, if_neg e]; exact hl 1 (by norm_num)
  have hw : ∀ ch, totalWeight [a, b] [1 / 4, 3 / 4] ch = totalWeight [b, a, b] [1 / 2, 1 / 4, 1 / 4] ch := by
    intro ch
    simp only [totalWeight_cons]
    split_ifs <;> simp [totalWeight] <;> norm_num
  refine ⟨cube, a, b, _, _, P, hi, hi', fun ch hch => ⟨hA ch hch, hS ch hch⟩, ?_, ?_, ?_, ⟨t0, 0, 0, 0, 0⟩, hc, fun ch _ => ?_⟩
  · exact (C74_distributions hi hi' h.cubeIs h.cubeIs h.light h.light hA hw true true (fun _ => hS)).2 ['t','v'] ['x'] (by decide +kernel)
  · exact C74_means hi hi' h.cubeIs h.cubeIs h.light h.light hA hw true (fun _ => hS) 'v' (by decide) ['x'] (by decide +kernel)
  · exact C74_central hi hi' h.cubeIs h.cubeIs h.light h.light hA hA1 hw true (fun _ => hS) 'v' (by decide) ['x'] (by decide +kernel) 3
  · by_cases e : ch = a
    · simp only [P, if_pos e]; exact (ingr_amount_pos hP demoL_pos hc (hpos _ hc rfl) rfl).ne'
    · simp only [P, if_neg e]
      rw [twoStars_amount hc hc, if_pos rfl]
      have : 0 < Pop.wt demoL true ⟨t0, 0, 0, 0, 0⟩ := by unfold Pop.wt; split; exacts [demoL_pos _ _, one_pos]
      positivity

/-- Datacubes: two components with evaluated datacubes of two values, in different orders. -/
example (cube : IFUCube) (self : Self) : ∃ m m' y y', Mix.init cube [Component.child self (some (full [2, 1, 1] (.fin 5))),
      Component.child self (some (full [2, 1, 1] (.fin 7)))] [1 / 4, 3 / 4] = .ok m ∧
    Mix.init cube [Component.child self (some (full [2, 1, 1] (.fin 7))), Component.child self (some (full [2, 1, 1] (.fin 5)))] [3 / 4, 1 / 4] = .ok m' ∧
    Mix.evaluateYbar m = .ok { m with ybar := some y } ∧ Mix.evaluateYbar m' = .ok { m' with ybar := some y' } ∧ y.get [1, 0, 0] = y'.get [1, 0, 0] := by
  have h1 := (C28_constructor cube [Component.child self (some (full [2, 1, 1] (.fin 5))),
      Component.child self (some (full [2, 1, 1] (.fin 7)))] [1 / 4, 3 / 4]).2 (by norm_num)
  have h2 := (C28_constructor cube [Component.child self (some (full [2, 1, 1] (.fin 7))),
      Component.child self (some (full [2, 1, 1] (.fin 5)))] [3 / 4, 1 / 4]).2 (by norm_num)
  obtain ⟨y, y', k1, k2, -, -, k3⟩ := C74_datacube h1 h2 (fun ch => (C74_total_weights _ _ _ _ ch ch 0 0 rfl).1 (List.Perm.swap _ _ _))
    (fun ch j => match ch.ybar with | some a => (match a.get j with | .fin x => x | _ => 0) | none => 0) [2, 1, 1] (by
      intro ch hch
      simp only [List.mem_cons, List.not_mem_nil, or_false] at hch
      rcases hch with rfl | rfl <;> exact ⟨_, rfl, rfl, fun j _ => rfl⟩)
  exact ⟨_, _, y, y', h1, h2, k1, k2, k3 [1, 0, 0] (by simp [InBox])⟩

end PKM
