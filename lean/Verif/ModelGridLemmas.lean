import Verif.ModelGridSpec
import Verif.SspInit

/-!
# Lemmas about `modelGrid`
-/

open scoped Classical

noncomputable section

namespace PKM
open Np

/-! ### Row-major order -/

theorem inBox_unravel : ∀ (s : List ℕ) (k : ℕ), k < s.prod → InBox s (unravel s k)
  | [], _, _ => trivial
  | n :: s, k, h => by
    rw [List.prod_cons] at h
    have hp : 0 < s.prod := Nat.pos_of_ne_zero fun e => by rw [e] at h; omega
    exact ⟨(Nat.div_lt_iff_lt_mul hp).2 h, inBox_unravel s _ (Nat.mod_lt _ hp)⟩

theorem ravel_lt : ∀ (s i : List ℕ), InBox s i → ravel s i < s.prod
  | [], [], _ => by simp [ravel]
  | n :: s, i :: r, h => by
    rw [List.prod_cons]
    have h2 := ravel_lt s r h.2
    calc i * s.prod + ravel s r < i * s.prod + s.prod := by omega
      _ = (i + 1) * s.prod := by ring
      _ ≤ n * s.prod := Nat.mul_le_mul_right _ h.1

theorem unravel_ravel : ∀ (s i : List ℕ), InBox s i → unravel s (ravel s i) = i
  | [], [], _ => rfl
  | n :: s, i :: r, h => by
    have h2 := ravel_lt s r h.2
    have hp : 0 < s.prod := by omega
    show ((i * s.prod + ravel s r) / s.prod) :: unravel s ((i * s.prod + ravel s r) % s.prod) = i :: r
    rw [Nat.mul_comm i, Nat.mul_add_div hp, Nat.mul_add_mod, Nat.div_eq_of_lt h2, Nat.mod_eq_of_lt h2, unravel_ravel s r h.2]
    simp

theorem unravel_lt : ∀ (s : List ℕ) (k l : ℕ), k < l → l < s.prod → unravel s k < unravel s l
  | [], k, l, h, h' => by simp at h'; omega
  | n :: s, k, l, h, h' => by
    rw [List.prod_cons] at h'
    have hp : 0 < s.prod := Nat.pos_of_ne_zero fun e => by rw [e] at h'; omega
    show (k / s.prod) :: unravel s (k % s.prod) < (l / s.prod) :: unravel s (l % s.prod)
    rw [List.cons_lt_cons_iff]
    rcases (Nat.div_le_div_right (c := s.prod) h.le).lt_or_eq with h1 | h1
    · exact Or.inl h1
    · refine Or.inr ⟨h1, unravel_lt s _ _ ?_ (Nat.mod_lt _ hp)⟩
      have e1 := Nat.div_add_mod k s.prod
      have e2 := Nat.div_add_mod l s.prod
      rw [h1] at e1
      omega

theorem inBox_len : ∀ {s i : List ℕ}, InBox s i → i.length = s.length
  | [], [], _ => rfl
  | _ :: _, _ :: _, h => by simp [inBox_len h.2]

theorem inBox_getD : ∀ {s i : List ℕ}, InBox s i → ∀ {a : ℕ}, a < s.length → i.getD a 0 < s.getD a 0
  | _ :: _, _ :: _, h, 0, _ => h.1
  | _ :: _, _ :: _, h, a + 1, ha => inBox_getD h.2 (by simpa using ha)

/-! ### Lists of arrays -/

/-- A one-dimensional array of `n` values `f`. -/
def Vec1 {α : Type} (v : Arr α) (p : ℕ × (ℕ → α)) : Prop := v.shape = [p.1] ∧ ∀ i < p.1, v.get [i] = p.2 i

theorem mapM_forall₂ {α β γ : Type} {R : α → β → Prop} {Q : γ → β → Prop} {f : α → Py γ}
    (hf : ∀ a b, R a b → ∃ c, f a = .ok c ∧ Q c b) : ∀ {l : List α} {l' : List β}, List.Forall₂ R l l' →
    ∃ cs, l.mapM f = .ok cs ∧ List.Forall₂ Q cs l'
  | _, _, .nil => ⟨[], rfl, .nil⟩
  | _, _, .cons h t => by
    obtain ⟨c, h1, h2⟩ := hf _ _ h
    obtain ⟨cs, h3, h4⟩ := mapM_forall₂ hf t
    refine ⟨c :: cs, ?_, .cons h2 h4⟩
    rw [List.mapM_cons, h1, Py.ok_bind, h3, Py.ok_bind]
    rfl

theorem shapes_of {α : Type} {vs : List (Arr α)} {ps : List (ℕ × (ℕ → α))} (h : List.Forall₂ Vec1 vs ps) :
    vs.map (fun u => u.shape.headD 0) = ps.map Prod.fst := by
  induction h with
  | nil => rfl
  | cons h _ ih =>
    rw [List.map_cons, List.map_cons, ih, h.1]
    rfl

theorem forall₂_at {α β : Type} {R : α → β → Prop} {l : List α} {l' : List β} (h : List.Forall₂ R l l') {a : ℕ} (ha : a < l.length)
    (ha' : a < l'.length) : R l[a] l'[a] := (List.forall₂_iff_get.1 h).2 a ha ha'

theorem meshgrid_stack {α : Type} [Inhabited α] {vs : List (Arr α)} {ps : List (ℕ × (ℕ → α))} (h : List.Forall₂ Vec1 vs ps) (hne : ps ≠ []) :
    ∃ A, stack (meshgrid vs) = .ok A ∧ A.shape = ps.length :: ps.map Prod.fst ∧
      ∀ a (ha : a < ps.length), ∀ i, InBox (ps.map Prod.fst) i → A.get (a :: i) = (ps[a]).2 (i.getD a 0) := by
  have hlen := h.length_eq
  have hs := shapes_of h
  have hml : (meshgrid vs).length = vs.length := by simp [meshgrid]
  have hms : ∀ b ∈ meshgrid vs, b.shape = ps.map Prod.fst := by
    intro b hb
    obtain ⟨v, -, rfl⟩ := List.mem_map.1 hb
    exact hs
  cases hm : meshgrid vs with
  | nil =>
    rw [hm] at hml
    exact absurd (List.length_eq_zero_iff.1 (by rw [← hlen, ← hml]; rfl)) hne
  | cons b r =>
    rw [hm] at hms hml
    have hb := hms b (by simp)
    refine ⟨_, if_pos fun c hc => by rw [hms c (by simp [hc]), hb], ?_, ?_⟩
    · show (r.length + 1) :: b.shape = _
      rw [hb, ← hlen, ← hml]
      rfl
    · intro a ha i hi
      have ha' : a < (b :: r).length := by rw [hml, hlen]; exact ha
      show ((b :: r).getD a b).get i = _
      rw [List.getD_eq_getElem?_getD, List.getElem?_eq_getElem ha', Option.getD_some]
      have e : (b :: r)[a] = (meshgrid vs)[a]'(by rw [hm]; exact ha') := by simp only [hm]
      rw [e]
      have hav : a < vs.length := by omega
      have hv := forall₂_at h hav ha
      simp only [meshgrid, List.getElem_map, List.getElem_zipIdx]
      rw [Nat.zero_add]
      refine hv.2 _ ?_
      have := inBox_getD hi (a := a) (by simpa using ha)
      rw [List.getD_eq_getElem?_getD (l := ps.map Prod.fst), List.getElem?_eq_getElem (by simpa using ha)] at this
      simpa using this

theorem reshapeRows_is {α : Type} {A : Arr α} {d : ℕ} {s : List ℕ} (hA : A.shape = d :: s) (hd : 0 < d) :
    ∃ B, reshapeRows d A = .ok B ∧ B.shape = [d, s.prod] ∧ ∀ a < d, ∀ k < s.prod, B.get [a, k] = A.get (a :: unravel s k) := by
  have e : A.shape.prod / d = s.prod := by
    rw [hA, List.prod_cons, Nat.mul_div_cancel_left _ hd]
  have hp : [d, s.prod].prod = A.shape.prod := by simp [hA]
  refine ⟨⟨[d, s.prod], fun i => A.get (unravel A.shape (ravel [d, s.prod] i))⟩, ?_, rfl, ?_⟩
  · unfold reshapeRows reshape
    rw [if_neg (by omega), e, if_pos hp]
  · intro a ha k hk
    have hp : 0 < s.prod := by omega
    show A.get (unravel A.shape (ravel [d, s.prod] [a, k])) = _
    have e2 : ravel [d, s.prod] [a, k] = s.prod * a + k := by simp [ravel]; ring
    rw [e2, hA]
    show A.get ((s.prod * a + k) / s.prod :: unravel s ((s.prod * a + k) % s.prod)) = _
    rw [Nat.mul_add_div hp, Nat.mul_add_mod, Nat.div_eq_of_lt hk, Nat.mod_eq_of_lt hk, Nat.add_zero]

theorem maskCols_is {α : Type} {A : Arr α} {keep : Arr Bool} {d P : ℕ} (hA : A.shape = [d, P]) (hk : keep.shape = [P]) :
    ∃ B, maskCols keep A = .ok B ∧ B.shape = [d, ((List.range P).filter (fun k => keep.get [k])).length] ∧
      ∀ a k, B.get [a, k] = A.get [a, ((List.range P).filter (fun k => keep.get [k])).getD k 0] := by
  unfold maskCols
  rw [hA]
  refine ⟨_, if_pos hk, rfl, fun a k => rfl⟩

/-! ### The grid -/

theorem parGrid_is {es : List (Arr Num)} {ps : List (ℕ × (ℕ → ℝ))} (h : EdgesAre es ps) (hne : ps ≠ []) {mask : Option MaskFn}
    {m : Option ((ℕ → Num) → Bool)} (hm : OptMaskIs ps.length mask m) :
    ∃ G cells, parGrid ps.length (ps.map Prod.fst) mask es = .ok G ∧ ParGridIs G ps m cells := by
  have hd : 0 < ps.length := List.length_pos_of_ne_nil hne
  obtain ⟨ws, hw, hws⟩ := mapM_forall₂ (f := edgeWidths) (Q := fun e p => Is1 e p.1 (width p.2)) (fun a b hab => edgeWidths_is hab) h
  obtain ⟨cs, hc, hcs⟩ := mapM_forall₂ (f := edgeCents) (Q := fun e p => Is1 e p.1 (centre p.2)) (fun a b hab => edgeCents_is hab) h
  -- centres
  have hcv : List.Forall₂ Vec1 cs (ps.map (fun p => (p.1, fun i => Num.fin (centre p.2 i)))) := by
    rw [List.forall₂_map_right_iff]
    exact hcs.imp fun a b hab => ⟨hab.shape, hab.get⟩
  have hiv : List.Forall₂ Vec1 (es.map (fun e => vec (e.shape.headD 0 - 1) (fun i : ℕ => i))) (ps.map (fun p => (p.1, fun i : ℕ => i))) := by
    rw [List.forall₂_map_right_iff, List.forall₂_map_left_iff]
    refine h.imp fun a b hab => ⟨?_, fun i _ => rfl⟩
    show [a.shape.headD 0 - 1] = _
    rw [hab.shape]
    rfl
  have e1 : (ps.map (fun p => (p.1, fun i => Num.fin (centre p.2 i)))).map Prod.fst = ps.map Prod.fst := by
    rw [List.map_map]
    rfl
  have e2 : (ps.map (fun p => (p.1, fun i : ℕ => i))).map Prod.fst = ps.map Prod.fst := by
    rw [List.map_map]
    rfl
  obtain ⟨N, hN, hNs, hNg⟩ := meshgrid_stack hcv (by simpa using hne)
  obtain ⟨I, hI, hIs, hIg⟩ := meshgrid_stack hiv (by simpa using hne)
  rw [e1, List.length_map] at hNs
  rw [e2, List.length_map] at hIs
  rw [e1] at hNg
  rw [e2] at hIg
  obtain ⟨P, hP, hPs, hPg⟩ := reshapeRows_is hNs hd
  obtain ⟨J, hJ, hJs, hJg⟩ := reshapeRows_is hIs hd
  have hpt : ∀ a < ps.length, ∀ i, InBox (ps.map Prod.fst) i → N.get (a :: i) = .fin (cellPoint ps i a) := by
    intro a ha i hi
    rw [hNg a (by simpa using ha) i hi]
    simp only [List.getElem_map, cellPoint]
    rw [List.getD_eq_getElem?_getD (l := ps), List.getElem?_eq_getElem ha, Option.getD_some]
  have hptP : ∀ a < ps.length, ∀ k < (ps.map Prod.fst).prod, P.get [a, k] = .fin (cellPoint ps (unravel (ps.map Prod.fst) k) a) := by
    intro a ha k hk
    rw [hPg a ha k hk, hpt a ha _ (inBox_unravel _ _ hk)]
  -- the mask
  obtain ⟨M, M1, hM, hMs, hMg, hM1s, hM1g⟩ : ∃ M M1, gridMasks (ps.map Prod.fst) mask N P = .ok (M, M1) ∧
      M.shape = ps.map Prod.fst ∧ (∀ c, InBox (ps.map Prod.fst) c → M.get c = leftOut m (cellPoint ps c)) ∧
      M1.shape = [(ps.map Prod.fst).prod] ∧ ∀ k < (ps.map Prod.fst).prod, M1.get [k] = leftOut m (cellPoint ps (unravel (ps.map Prod.fst) k)) := by
    cases mask with
    | none =>
      cases m with
      | none => exact ⟨_, _, rfl, rfl, fun _ _ => rfl, rfl, fun _ _ => rfl⟩
      | some m => exact hm.elim
    | some f =>
      cases m with
      | none => exact hm.elim
      | some m =>
        obtain ⟨hloc, hf⟩ := hm
        obtain ⟨B, hB, hBs, hBg⟩ := hf N _ hNs
        obtain ⟨C, hC, hCs, hCg⟩ := hf P _ hPs
        refine ⟨B, C, ?_, hBs, fun c hc => ?_, hCs, fun k hk => ?_⟩
        · show (do let a ← f N; let b ← f P; .ok (a, b) : Py (Arr Bool × Arr Bool)) = _
          rw [hB, Py.ok_bind, hC, Py.ok_bind]
        · rw [hBg c hc]
          exact hloc _ _ fun a ha => hpt a ha c hc
        · rw [hCg [k] ⟨hk, trivial⟩]
          exact hloc _ _ fun a ha => hptP a ha k hk
  have hus : (Np.map (fun b => !b) M1).shape = [(ps.map Prod.fst).prod] := hM1s
  obtain ⟨P', hP', hPs', hPg'⟩ := maskCols_is hPs hus
  obtain ⟨J', hJ', hJs', hJg'⟩ := maskCols_is hJs hus
  set keep := (List.range (ps.map Prod.fst).prod).filter (fun k => (Np.map (fun b => !b) M1).get [k]) with hkeep
  have hkm : ∀ k, k ∈ keep ↔ k < (ps.map Prod.fst).prod ∧ leftOut m (cellPoint ps (unravel (ps.map Prod.fst) k)) = false := by
    intro k
    rw [hkeep, List.mem_filter, List.mem_range]
    refine and_congr_right fun hk => ?_
    show (!(M1.get [k])) = true ↔ _
    rw [hM1g k hk]
    simp
  have hks : keep.Pairwise (· < ·) := List.pairwise_lt_range.filter _
  have hget : ∀ k (hk : k < keep.length), keep.getD k 0 = keep[k] := fun k hk => by
    rw [List.getD_eq_getElem?_getD, List.getElem?_eq_getElem hk, Option.getD_some]
  refine ⟨⟨es, ws, cs, M, J', P'⟩, keep.map (unravel (ps.map Prod.fst)), ?_, h, hws, hcs, ?_, ?_, ?_, ?_, ?_, ?_, hMs, hMg⟩
  · unfold parGrid
    rw [hw, Py.ok_bind, hc, Py.ok_bind]
    show (do let nd ← stack (meshgrid cs); _) = _
    rw [hN, Py.ok_bind, hP, Py.ok_bind, hI, Py.ok_bind, hJ, Py.ok_bind, hM, Py.ok_bind]
    show (do let pars ← maskCols (Np.map (fun b => !b) M1) P; _) = _
    rw [hP', Py.ok_bind, hJ', Py.ok_bind]
  · rw [List.pairwise_map]
    exact hks.imp_of_mem fun {a b} _ hb hab => unravel_lt _ _ _ hab ((hkm b).1 hb).1
  · intro c
    rw [List.mem_map]
    constructor
    · rintro ⟨k, hk, rfl⟩
      exact ⟨inBox_unravel _ _ ((hkm k).1 hk).1, ((hkm k).1 hk).2⟩
    · rintro ⟨hc1, hc2⟩
      refine ⟨ravel (ps.map Prod.fst) c, (hkm _).2 ⟨ravel_lt _ _ hc1, ?_⟩, unravel_ravel _ _ hc1⟩
      rw [unravel_ravel _ _ hc1]
      exact hc2
  · rw [hPs', List.length_map]
  · intro a ha k hk
    rw [List.length_map] at hk
    rw [hPg', hget k hk, hptP a ha _ ((hkm _).1 (List.getElem_mem hk)).1, List.getElem_map]
  · rw [hJs', List.length_map]
  · intro a ha k hk
    rw [List.length_map] at hk
    have hm' := ((hkm _).1 (List.getElem_mem hk)).1
    rw [hJg', hget k hk, hJg a ha _ hm', hIg a (by simpa using ha) _ (inBox_unravel _ _ hm'), List.getElem_map]
    simp

/-- Equal bins between the limits. -/
theorem evenParEdges_is : ∀ axes : List (ℕ × ℝ × ℝ), ∃ es, evenParEdges (axes.map Prod.fst) (axes.map (fun a => [a.2.1, a.2.2])) = .ok es ∧
    EdgesAre es (axes.map (fun a => (a.1, evenEdges a.2 a.1)))
  | [] => ⟨[], rfl, .nil⟩
  | a :: r => by
    obtain ⟨es, h1, h2⟩ := evenParEdges_is r
    obtain ⟨e, h3, h4⟩ := linspace_is a.2 a.1
    refine ⟨e :: es, ?_, .cons h4 h2⟩
    show (do let e ← linspace a.2.1 a.2.2 ((a.1 : ℤ) + 1); let r ← evenParEdges _ _; .ok (e :: r) : Py (List (Arr Num))) = _
    rw [h3, Py.ok_bind, h1, Py.ok_bind]

end PKM
