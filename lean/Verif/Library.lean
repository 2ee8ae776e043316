import Verif.Props.Miles

/-!
# The SSP library that comes with the package

`data/MILES_BASTI_CH_baseFe` of the repository holds 636 FITS files: every combination of 12 metallicities and 53 ages, and no
`all_spectra.npy`. The file names are spelled out here; what is in the files is not (each holds 4300 numbers).
-/

open scoped Classical

noncomputable section

namespace PKM
open Np

/-- Metallicities of the library, in units of 0.01 dex. -/
def libraryZ : List ℤ := [-227, -179, -149, -126, -96, -66, -35, -25, 6, 15, 26, 40]

/-- Ages of the library, in units of 0.01 Gyr. -/
def libraryT : List ℕ :=
  [3, 4, 5, 6, 7, 8, 9, 10, 15, 20, 25, 30, 35, 40, 45, 50, 60, 70, 80, 90, 100, 125, 150, 175, 200, 225, 250, 275, 300, 325, 350, 375,
   400, 450, 500, 550, 600, 650, 700, 750, 800, 850, 900, 950, 1000, 1050, 1100, 1150, 1200, 1250, 1300, 1350, 1400]

/-- The metallicities. -/
def libraryMetals : List ℝ := libraryZ.map (fun k : ℤ => (k : ℝ) / 100)
/-- The ages. -/
def libraryAges : List ℝ := libraryT.map (fun k : ℕ => (k : ℝ) / 100)

/-- `k` written with two digits, for `k < 100`. -/
def digits2 (k : ℕ) : PyStr := [Char.ofNat (48 + k / 10), Char.ofNat (48 + k % 10)]

/-- The name of the file with metallicity `z / 100` and age `t / 100`: `Mch1.30Z<m|p>#.##T##.####_iTp0.00_baseFe.fits`. -/
def libraryName (z : ℤ) (t : ℕ) : FileName where
  imf := "Mch1.30".toList
  neg := decide (z < 0)
  za := [Char.ofNat (48 + z.natAbs / 100)]
  zb := digits2 (z.natAbs % 100)
  ta := digits2 (t / 100)
  tb := digits2 (t % 100) ++ ['0', '0']
  tail := "Tp0.00_baseFe.fits".toList

/-- All files of the library, in some order. -/
def libraryFiles : List FileName := libraryZ.flatMap (fun z => libraryT.map (libraryName z))

/-- A directory with the files of the library: `os.listdir` gives the names in any order, and every file holds as many numbers as there
are wavelengths. -/
structure LibraryDir (dir : MilesDir) : Prop where
  names : dir.names.Perm (libraryFiles.map FileName.str)
  spectra : ∀ f ∈ libraryFiles, ∃ s, dir.file f.str = some s ∧ s.length = 4300

theorem mem_libraryFiles {f : FileName} : f ∈ libraryFiles ↔ ∃ z ∈ libraryZ, ∃ t ∈ libraryT, libraryName z t = f := by
  simp [libraryFiles, List.mem_flatMap]

theorem libraryName_ok : ∀ z ∈ libraryZ, ∀ t ∈ libraryT, (libraryName z t).Ok := by
  have hz : ∀ z ∈ libraryZ, (∀ c ∈ [Char.ofNat (48 + z.natAbs / 100)], c.isDigit) ∧ ∀ c ∈ digits2 (z.natAbs % 100), c.isDigit := by
    decide +kernel
  have ht : ∀ t ∈ libraryT, (∀ c ∈ digits2 (t / 100), c.isDigit) ∧ ∀ c ∈ digits2 (t % 100) ++ ['0', '0'], c.isDigit := by
    decide +kernel
  intro z h t h'
  exact {
    imf := show 'Z' ∉ "Mch1.30".toList by decide
    za := (hz z h).1
    zb := (hz z h).2
    ta := (ht t h').1
    tb := (ht t h').2
    zne := by simp [libraryName]
    tne := by simp [libraryName, digits2]
    tailZ := show 'Z' ∉ "Tp0.00_baseFe.fits".toList by decide
    tailT := show "Tp0.00_baseFe.fits".toList.count 'T' ≤ 1 by decide
    tailI := show ¬ ['_', 'i'] <:+: "Tp0.00_baseFe.fits".toList by decide }

/-- The metallicity in the name is the one meant. -/
theorem libraryName_z : ∀ z ∈ libraryZ, ∀ t, (libraryName z t).z = z / 100 := by
  have h : ∀ z ∈ libraryZ, (Nat.ofDigits 10 ((([Char.ofNat (48 + z.natAbs / 100)] ++ digits2 (z.natAbs % 100)).map
      (fun c => c.toNat - 48)).reverse) : ℕ) = z.natAbs ∧ (digits2 (z.natAbs % 100)).length = 2 := by decide +kernel
  intro z hz t
  have e := h z hz
  have hd : decimal (libraryName z t).za (libraryName z t).zb = (z.natAbs : ℝ) / 100 := by
    unfold decimal
    show ((Nat.ofDigits 10 ((([Char.ofNat (48 + z.natAbs / 100)] ++ digits2 (z.natAbs % 100)).map
      (fun c => c.toNat - 48)).reverse) : ℕ) : ℝ) / 10 ^ (digits2 (z.natAbs % 100)).length = _
    rw [e.1, e.2]
    norm_num
  unfold FileName.z
  rw [hd]
  have ha : (z.natAbs : ℝ) = |(z : ℝ)| := by
    rw [Nat.cast_natAbs]
    push_cast
    rfl
  rw [ha]
  by_cases hn : z < 0
  · have : (libraryName z t).neg = true := by simp [libraryName, hn]
    rw [if_pos this, abs_of_neg (by exact_mod_cast hn)]
    ring
  · have : ¬ (libraryName z t).neg = true := by simp [libraryName, hn]
    rw [if_neg this, abs_of_nonneg (by exact_mod_cast not_lt.1 hn)]

/-- The age in the name is the one meant. -/
theorem libraryName_t : ∀ t ∈ libraryT, ∀ z, (libraryName z t).t = t / 100 := by
  have h : ∀ t ∈ libraryT, (Nat.ofDigits 10 (((digits2 (t / 100) ++ (digits2 (t % 100) ++ ['0', '0'])).map
      (fun c => c.toNat - 48)).reverse) : ℕ) = t * 100 ∧ (digits2 (t % 100) ++ ['0', '0']).length = 4 := by decide +kernel
  intro t ht z
  have e := h t ht
  show decimal (libraryName z t).ta (libraryName z t).tb = _
  unfold decimal
  show ((Nat.ofDigits 10 (((digits2 (t / 100) ++ (digits2 (t % 100) ++ ['0', '0'])).map
      (fun c => c.toNat - 48)).reverse) : ℕ) : ℝ) / 10 ^ (digits2 (t % 100) ++ ['0', '0']).length = _
  rw [e.1, e.2]
  push_cast
  norm_num
  ring

theorem libraryMetals_sorted : libraryMetals.Pairwise (· < ·) := by
  have h : libraryZ.Pairwise (· < ·) := by decide +kernel
  unfold libraryMetals
  rw [List.pairwise_map]
  exact h.imp fun {a b} hab => by
    have : (a : ℝ) < b := by exact_mod_cast hab
    linarith

theorem libraryAges_sorted : libraryAges.Pairwise (· < ·) := by
  have h : libraryT.Pairwise (· < ·) := by decide +kernel
  unfold libraryAges
  rw [List.pairwise_map]
  exact h.imp fun {a b} hab => by
    have : (a : ℝ) < b := by exact_mod_cast hab
    linarith

/-- One file for each pair. -/
theorem library_pairs : libraryFiles.map (fun f => (f.z, f.t)) = libraryMetals ×ˢ libraryAges := by
  unfold libraryFiles libraryMetals libraryAges
  have : ∀ Z : List ℤ, (∀ z ∈ Z, z ∈ libraryZ) →
      (Z.flatMap (fun z => libraryT.map (libraryName z))).map (fun f => (f.z, f.t)) =
        (Z.map (fun k : ℤ => (k : ℝ) / 100)) ×ˢ (libraryT.map (fun k : ℕ => (k : ℝ) / 100)) := by
    intro Z hZ
    induction Z with
    | nil => rfl
    | cons z Z ih =>
      rw [List.flatMap_cons, List.map_append, ih fun a ha => hZ a (List.mem_cons_of_mem _ ha), List.map_cons, List.product_cons]
      congr 1
      rw [List.map_map, List.map_map]
      refine List.map_congr_left fun t ht => ?_
      simp only [Function.comp]
      rw [libraryName_z z (hZ z (by simp)), libraryName_t t ht]
  exact this libraryZ fun _ h => h

/-- A directory of the library: its names belong to files in some order. -/
theorem LibraryDir.files {dir : MilesDir} (h : LibraryDir dir) :
    ∃ fs : List FileName, dir.names = fs.map FileName.str ∧ fs.Perm libraryFiles := by
  have hf : List.Forall₂ (fun s f => s = FileName.str f) (libraryFiles.map FileName.str) libraryFiles := by
    rw [List.forall₂_map_left_iff]
    exact List.forall₂_same.2 fun _ _ => rfl
  obtain ⟨w, hw, hp⟩ := List.perm_comp_forall₂ h.names hf
  refine ⟨w, ?_, hp⟩
  have : ∀ {l : List PyStr} {w : List FileName}, List.Forall₂ (fun s f => s = FileName.str f) l w → l = w.map FileName.str := by
    intro l w h
    induction h with
    | nil => rfl
    | cons e _ ih => rw [List.map_cons, ← e, ← ih]
  exact this hw

variable {fs : List FileName} {ageLim zLim : Option (ℝ × ℝ)}

/-- The ages of the library inside the limits; without limits all. -/
def agesIn (ageLim : Option (ℝ × ℝ)) : List ℝ := libraryAges.filter (fun x => x ∈ Set.Icc (ageLim.getD (-3, 30)).1 (ageLim.getD (-3, 30)).2)
/-- The metallicities of the library inside the limits; without limits all. -/
def metalsIn (zLim : Option (ℝ × ℝ)) : List ℝ := libraryMetals.filter (fun x => x ∈ Set.Icc (zLim.getD (-3, 3)).1 (zLim.getD (-3, 3)).2)

theorem mem_within_library (hp : fs.Perm libraryFiles) {z t : ℝ} : (z, t) ∈ (within ageLim zLim fs).map (fun f => (f.z, f.t)) ↔
    z ∈ metalsIn zLim ∧ t ∈ agesIn ageLim := by
  have e : (z, t) ∈ fs.map (fun f => (f.z, f.t)) ↔ z ∈ libraryMetals ∧ t ∈ libraryAges := by
    rw [(hp.map _).mem_iff, library_pairs]
    exact List.pair_mem_product
  have hw : (z, t) ∈ (within ageLim zLim fs).map (fun f => (f.z, f.t)) ↔ (z, t) ∈ fs.map (fun f => (f.z, f.t)) ∧
      t ∈ Set.Icc (ageLim.getD (-3, 30)).1 (ageLim.getD (-3, 30)).2 ∧ z ∈ Set.Icc (zLim.getD (-3, 3)).1 (zLim.getD (-3, 3)).2 := by
    simp only [within, List.mem_map, List.mem_filter, decide_eq_true_eq, Prod.mk.injEq]
    constructor
    · rintro ⟨f, ⟨h1, h2⟩, rfl, rfl⟩
      exact ⟨⟨f, h1, rfl, rfl⟩, h2⟩
    · rintro ⟨⟨f, h1, rfl, rfl⟩, h2⟩
      exact ⟨f, ⟨h1, h2⟩, rfl, rfl⟩
  rw [hw, e]
  simp only [agesIn, metalsIn, List.mem_filter, decide_eq_true_eq]
  tauto

theorem library_distinct (hp : fs.Perm libraryFiles) : Distinct (within ageLim zLim fs) := by
  unfold Distinct
  have h : (fs.map (fun f => (f.z, f.t))).Nodup := by
    rw [(hp.map _).nodup_iff, library_pairs]
    exact List.Nodup.product libraryMetals_sorted.nodup libraryAges_sorted.nodup
  exact h.sublist (List.Sublist.map _ List.filter_sublist)

theorem library_full (hp : fs.Perm libraryFiles) : FullGrid (within ageLim zLim fs) := by
  rw [fullGrid_iff]
  rintro ⟨z, t⟩ h ⟨z', t'⟩ h'
  rw [mem_within_library hp] at *
  exact ⟨h.1, h'.2⟩

theorem library_ages (hp : fs.Perm libraryFiles) (h : metalsIn zLim ≠ []) : agesOf (within ageLim zLim fs) = agesIn ageLim := by
  refine sort_eq (libraryAges_sorted.filter _) fun t => ?_
  obtain ⟨z, hz⟩ := List.exists_mem_of_ne_nil _ h
  constructor
  · intro ht
    have := (mem_within_library hp).2 ⟨hz, ht⟩
    simp only [List.mem_map, Prod.mk.injEq] at this
    obtain ⟨f, h1, h2, h3⟩ := this
    exact List.mem_map.2 ⟨f, h1, h3⟩
  · intro ht
    obtain ⟨f, h1, rfl⟩ := List.mem_map.1 ht
    exact ((mem_within_library hp).1 (List.mem_map_of_mem (f := fun f : FileName => (f.z, f.t)) h1)).2

theorem library_metals (hp : fs.Perm libraryFiles) (h : agesIn ageLim ≠ []) : metalsOf (within ageLim zLim fs) = metalsIn zLim := by
  refine sort_eq (libraryMetals_sorted.filter _) fun z => ?_
  obtain ⟨t, ht⟩ := List.exists_mem_of_ne_nil _ h
  constructor
  · intro hz
    have := (mem_within_library hp).2 ⟨hz, ht⟩
    simp only [List.mem_map, Prod.mk.injEq] at this
    obtain ⟨f, h1, h2, h3⟩ := this
    exact List.mem_map.2 ⟨f, h1, h2⟩
  · intro hz
    obtain ⟨f, h1, rfl⟩ := List.mem_map.1 hz
    exact ((mem_within_library hp).1 (List.mem_map_of_mem (f := fun f : FileName => (f.z, f.t)) h1)).1

theorem sorted_getD {l : List ℝ} (h : l.Pairwise (· < ·)) {i : ℕ} (hi : i + 1 < l.length) : l.getD i 0 < l.getD (i + 1) 0 := by
  rw [List.getD_eq_getElem?_getD, List.getD_eq_getElem?_getD, List.getElem?_eq_getElem (by omega), List.getElem?_eq_getElem hi]
  exact List.pairwise_iff_getElem.1 h i (i + 1) (by omega) hi (by omega)

theorem libraryAges_pos {t : ℝ} (h : t ∈ libraryAges) : 0 < t := by
  obtain ⟨k, hk, rfl⟩ := List.mem_map.1 h
  have : ∀ k ∈ libraryT, 0 < k := by decide +kernel
  have : (0 : ℝ) < k := by exact_mod_cast this k hk
  positivity

theorem libraryMetals_gap {z : ℝ} (h : z ∈ libraryMetals) (h0 : z ≤ 0) : z ≤ -1 / 4 := by
  obtain ⟨k, hk, rfl⟩ := List.mem_map.1 h
  have h1 : ∀ k ∈ libraryZ, k ≤ 0 → k ≤ -25 := by decide +kernel
  have h2 : (k : ℝ) ≤ 0 := by linarith
  have : (k : ℝ) ≤ -25 := by exact_mod_cast h1 k hk (by exact_mod_cast h2)
  linarith

theorem agesIn_good (h : 2 ≤ (agesIn ageLim).length) : GoodValues (agesIn ageLim).length (fun j => (agesIn ageLim).getD j 0) := by
  refine ⟨fun i hi => sorted_getD (libraryAges_sorted.filter _) hi, fun e => ?_⟩
  have hm : (agesIn ageLim).getD 0 0 ∈ agesIn ageLim := by
    rw [getD_lt (by omega)]
    exact List.getElem_mem _
  have := libraryAges_pos (List.mem_of_mem_filter hm)
  linarith [e.2]

theorem metalsIn_good (h : 2 ≤ (metalsIn zLim).length) : GoodValues (metalsIn zLim).length (fun j => (metalsIn zLim).getD j 0) := by
  refine ⟨fun i hi => sorted_getD (libraryMetals_sorted.filter _) hi, fun e => ?_⟩
  have hm : (metalsIn zLim).getD 0 0 ∈ metalsIn zLim := by
    rw [getD_lt (by omega)]
    exact List.getElem_mem _
  have h1 := libraryMetals_gap (List.mem_of_mem_filter hm) e.2
  have h2 := sorted_getD (libraryMetals_sorted.filter (fun x => decide (x ∈ Set.Icc (zLim.getD (-3, 3)).1 (zLim.getD (-3, 3)).2)))
    (i := 0) (by exact h)
  have h3 : (metalsIn zLim).getD 0 0 < (metalsIn zLim).getD 1 0 := h2
  have h4 := (abs_lt.1 e.1).1
  dsimp only at h4
  linarith

theorem library_size : (metalsIn zLim).length * (agesIn ageLim).length ≤ 100000 := by
  have h1 : (metalsIn zLim).length ≤ 12 := List.length_filter_le _ _
  have h2 : (agesIn ageLim).length ≤ 53 := List.length_filter_le _ _
  calc _ ≤ 12 * 53 := Nat.mul_le_mul h1 h2
    _ ≤ _ := by norm_num

/-- A range of wavelengths of at least 0.9 inside the library's contains a pixel. -/
theorem pixel_exists {lmdMin lmdMax : ℝ} (h1 : 7081 / 2 ≤ lmdMin) (h2 : lmdMax ≤ 37048 / 5) (h : lmdMin + 9 / 10 ≤ lmdMax) :
    ∃ x ∈ milesLmd, x ∈ Set.Icc lmdMin lmdMax := by
  have h0 : 0 ≤ (lmdMin - 7081 / 2) / (9 / 10) := div_nonneg (by linarith) (by norm_num)
  refine ⟨_, mem_milesLmd.2 ⟨⌈(lmdMin - 7081 / 2) / (9 / 10)⌉₊, ?_, rfl⟩, ?_, ?_⟩
  · have := Nat.ceil_lt_add_one h0
    have h3 : (lmdMin - 7081 / 2) / (9 / 10) ≤ 4298 := by
      rw [div_le_iff₀ (by norm_num)]
      linarith
    have : (⌈(lmdMin - 7081 / 2) / (9 / 10)⌉₊ : ℝ) < 4300 := by linarith
    exact_mod_cast this
  · have := Nat.le_ceil ((lmdMin - 7081 / 2) / (9 / 10))
    rw [div_le_iff₀ (by norm_num)] at this
    linarith
  · have := Nat.ceil_lt_add_one h0
    have e : (lmdMin - 7081 / 2) / (9 / 10) * (9 / 10) = lmdMin - 7081 / 2 := by field_simp
    nlinarith

end PKM
