import Verif.Lemmas.Stretch
import Verif.Props.Invert
import Verif.Props.Superpose
set_option linter.unusedSectionVars false
set_option linter.unusedVariables false

/-!
# C96 — Below saturation, brightness, well depth and trap density make up for each other

A cloud of `n` electrons has the volume `(n / full_well_depth)^well_fill_power` as long as it is below the full well depth.
If the image is multiplied by `s`, the full well depth is replaced by `full'` and the trap densities are multiplied by
`s (full' / (s full))^power`, then the result is multiplied by `s`.
-/

namespace Arctic

/-- The same species with other densities: all of them `k` times as large. -/
noncomputable def timesDensity (k : ℝ) (gs : List (List Trap)) : List (List Trap) := gs.map (List.map (Trap.rescale k 1))

/-- The factor for the trap densities that makes up for a factor `s` in brightness and `full'` in place of `full`. -/
noncomputable def densityFactor (s full full' power : ℝ) : ℝ := s * (full' / (s * full)) ^ power

theorem wellFill_stretch {s full full' power n : ℝ} (hs : 0 < s) (hf : 0 < full) (hf' : 0 < full') (hle : s * full ≤ full')
    (hn : n ≤ full) : wellFill full' power (s * n) = (s * full / full') ^ power * wellFill full power n := by
  unfold wellFill
  have h1 : max 0 (n / full) ≤ 1 := max_le zero_le_one (div_le_one_of_le₀ hn hf.le)
  have e : s * n / full' = s * full / full' * (n / full) := by field_simp
  have hq : 0 ≤ s * full / full' := (div_pos (mul_pos hs hf) hf').le
  have e2 : max 0 (s * n / full') = s * full / full' * max 0 (n / full) := by
    rw [e, mul_max_of_nonneg _ _ hq, mul_zero]
  have h2 : s * full / full' * max 0 (n / full) ≤ 1 :=
    mul_le_one₀ (div_le_one_of_le₀ hle hf'.le) (le_max_left _ _) h1
  rw [e2, min_eq_right h2, min_eq_right h1, Real.mul_rpow hq (le_max_left _ _)]

theorem traps_mk_congr {n n' : ℕ} (h : n = n') {d : Fin n → ℝ} {d' : Fin n' → ℝ} {k : ℝ → Fin n → ℝ} {k' : ℝ → Fin n' → ℝ}
    (hd : ∀ j, d j = d' (Fin.cast h j)) (hk : ∀ x j, k x j = k' x (Fin.cast h j)) :
    (⟨n, d, k, fun _ _ => 0⟩ : Ref.Traps) = ⟨n', d', k', fun _ _ => 0⟩ := by
  subst h
  congr
  · funext j; exact hd j
  · funext x j; exact hk x j

theorem ofTraps_times {k s ν : ℝ} (hk : k = s / ν) {l : List Trap} (hl : ∀ t ∈ l, t.Bulk) :
    Ref.ofTraps (l.map (Trap.rescale k 1)) = (Ref.ofTraps l).stretch s ν := by
  refine traps_mk_congr (List.length_map _) (fun j => ?_) fun x j => ?_
  · obtain ⟨d, τ, b, e, -⟩ := hl (l[(j : ℕ)]'(by simpa using j.2)) (List.getElem_mem _)
    simp only [Fin.getElem_fin, List.getElem_map, Fin.val_cast, Ref.ofTraps]
    rw [e, hk]
    rfl
  · obtain ⟨d, τ, b, e, -⟩ := hl (l[(j : ℕ)]'(by simpa using j.2)) (List.getElem_mem _)
    simp only [Fin.getElem_fin, List.getElem_map, Fin.val_cast, Ref.ofTraps]
    rw [e]
    simp only [Trap.rescale, Trap.releaseTimescale, one_mul]

section column
variable {s full full' power dw : ℝ} {gs : List (List Trap)} {i i' : Bool} {c c' : CCD} {o : ℕ} {d d' : PyDirection}

/-- A column: the result for the other model and brightness, and how much a pixel can change. -/
theorem ExactObjects.stretch (h : ExactObjects full power dw gs i c o d)
    (h' : ExactObjects full' power dw (timesDensity (densityFactor s full full' power) gs) i' c' o d') (hs : 0 < s)
    (hle : s * full ≤ full') (n : ℕ) (x : ℕ → ℝ)
    (hx : ∀ r < n, max 0 (x r) + ((n + o : ℕ) + 1) * trapCount gs ≤ full) :
    Ref.readout (wellFill full' power) dw
        ((timesDensity (densityFactor s full full' power) gs).map Ref.ofTraps) (Ref.allPasses n o) (fun r => s * x r) =
      (fun r => s * Ref.readout (wellFill full power) dw (gs.map Ref.ofTraps) (Ref.allPasses n o) x r) ∧
    (∀ r, max 0 (Ref.readout (wellFill full power) dw (gs.map Ref.ofTraps) (Ref.allPasses n o) x r) ≤
      max 0 (x r) + (n + o : ℕ) * trapCount gs) ∧
    ∀ r, x r - (n + o : ℕ) * trapCount gs ≤
      Ref.readout (wellFill full power) dw (gs.map Ref.ofTraps) (Ref.allPasses n o) x r := by
  have hq : 0 < s * full / full' := div_pos (mul_pos hs h.full) h'.full
  have hν : 0 < (s * full / full') ^ power := Real.rpow_pos_of_pos hq _
  have hν1 : (s * full / full') ^ power ≤ 1 :=
    Real.rpow_le_one hq.le (div_le_one_of_le₀ hle h'.full.le) h.power.le
  have hk : densityFactor s full full' power = s / (s * full / full') ^ power := by
    unfold densityFactor
    rw [div_eq_mul_inv s, ← Real.inv_rpow hq.le, inv_div]
  have hfit : ∀ t ∈ gs.map Ref.ofTraps, t.Fit dw := by
    intro t ht
    obtain ⟨l, hl, rfl⟩ := List.mem_map.1 ht
    exact ⟨(Ref.ofTraps_ok (h.groups.2 l hl).2).reg h.dwell, fun _ _ _ => rfl⟩
  have htr : (timesDensity (densityFactor s full full' power) gs).map Ref.ofTraps =
      (gs.map Ref.ofTraps).map (Ref.Traps.stretch s ((s * full / full') ^ power)) := by
    unfold timesDensity
    rw [List.map_map, List.map_map]
    exact List.map_congr_left fun l hl => ofTraps_times hk (h.groups.2 l hl).2
  have key := Ref.readout_stretch hs hν hν1 (wellFill_exact h.full h.power).1 zero_le_one (top := full)
    (fun n hn => wellFill_stretch (power := power) hs h.full h'.full hle hn) hfit n _ (allPasses_good n o) x
  rw [allPasses_length, Ref.ofTraps_totals, mul_one] at key
  rw [htr]
  exact key hx

end column

/-! ## Images -/

/-- Maps `F` and `F'` of images: `F'` does to `s` times an image what `F` does to the image, as long as no pixel exceeds
`B`; and `F` takes no more than `D` electrons from a pixel. -/
structure Proportional (nr nc : ℕ) (s B D : ℝ) (F F' : (ℕ → ℕ → ℝ) → ℕ → ℕ → ℝ) : Prop where
  scale : ∀ x, (∀ r < nr, ∀ c < nc, max 0 (x r c) ≤ B) → SameGrid nr nc (F' fun r c => s * x r c) fun r c => s * F x r c
  drop : ∀ x, (∀ r < nr, ∀ c < nc, max 0 (x r c) ≤ B) → ∀ r < nr, ∀ c < nc, x r c - D ≤ F x r c
  congr : ∀ x y, SameGrid nr nc x y → SameGrid nr nc (F x) (F y)
  congr' : ∀ x y, SameGrid nr nc x y → SameGrid nr nc (F' x) (F' y)

theorem Proportional.remove {nr nc : ℕ} {s B D : ℝ} {F F' : (ℕ → ℕ → ℝ) → ℕ → ℕ → ℝ} (h : Proportional nr nc s B D F F')
    (hD : 0 ≤ D) (i : ℕ → ℕ → ℝ) (hi : ∀ r < nr, ∀ c < nc, max 0 (i r c) + D ≤ B) (n : ℕ) :
    (∀ r < nr, ∀ c < nc, max 0 (removeSeq F i n r c) ≤ B) ∧
      SameGrid nr nc (removeSeq F' (fun r c => s * i r c) n) fun r c => s * removeSeq F i n r c := by
  induction n with
  | zero => exact ⟨fun r hr c hc => (le_add_of_nonneg_right hD).trans (hi r hr c hc), fun _ _ _ _ => rfl⟩
  | succ n ih =>
    obtain ⟨i1, i2⟩ := ih
    refine ⟨fun r hr c hc => ?_, fun r hr c hc => ?_⟩
    · have h1 := h.drop _ i1 r hr c hc
      have h2 := hi r hr c hc
      have h3 := le_max_right 0 (i r c)
      have h4 := le_max_left 0 (i r c)
      change max 0 (removeSeq F i n r c + (i r c - F (removeSeq F i n) r c)) ≤ B
      exact max_le (by linarith) (by linarith)
    · change removeSeq F' (fun r c => s * i r c) n r c + (s * i r c - F' (removeSeq F' (fun r c => s * i r c) n) r c) =
        s * (removeSeq F i n r c + (i r c - F (removeSeq F i n) r c))
      rw [h.congr' _ _ i2 r hr c hc, h.scale _ i1 r hr c hc, i2 r hr c hc]
      ring

/-- The loop of `remove_cti` follows the iteration. -/
theorem removeIter_grid {S : Type} (add : Image ℝ → S → Except Err (Image ℝ × S)) (st : S) (img : Image ℝ)
    {F : (ℕ → ℕ → ℝ) → ℕ → ℕ → ℝ} (hcongr : ∀ x y, SameGrid img.nr img.nc x y → SameGrid img.nr img.nc (F x) (F y))
    (hadd : ∀ x : Image ℝ, x.SameShape img → ∃ y, add x st = .ok (y, st) ∧ y.SameShape img ∧
      SameGrid img.nr img.nc y.px (F x.px)) (n : ℕ) :
    ∃ out, removeIter add img n (img, st) = .ok (out, st) ∧ out.SameShape img ∧
      SameGrid img.nr img.nc out.px (removeSeq F img.px n) := by
  induction n with
  | zero => exact ⟨img, rfl, ⟨rfl, rfl⟩, fun _ _ _ _ => rfl⟩
  | succ n ih =>
    obtain ⟨x, h1, h2, h3⟩ := ih
    obtain ⟨y, g1, g2, g3⟩ := hadd x h2
    refine ⟨improve img x y, ?_, h2, fun r hr c hc => ?_⟩
    · rw [removeIter_succ, h1]
      simp only [bind, Except.bind, g1]
    · change x.px r c + (img.px r c - y.px r c) = removeSeq F img.px n r c + (img.px r c - F (removeSeq F img.px n) r c)
      rw [h3 r hr c hc, g3 r hr c hc, hcongr _ _ h3 r hr c hc]

theorem allPasses_rows (n o : ℕ) : ∀ p ∈ Ref.allPasses n o, ∀ x ∈ p, x.1 < n :=
  fun p hp x hx => ((allPasses_good n o).mult p hp x hx).1

section main
variable {s fp fs fp' fs' pp ps dp ds : ℝ} {gp gs : List (List Trap)} {ip is ip' is' : Bool} {cp cs cp' cs' : CCD}
  {op os : ℕ} {par ser par' ser' : PyDirection}

/-- Both directions. -/
theorem both_proportional (hp : ExactObjects fp pp dp gp ip cp op par) (hs : ExactObjects fs ps ds gs is cs os ser)
    (hp' : ExactObjects fp' pp dp (timesDensity (densityFactor s fp fp' pp) gp) ip' cp' op par')
    (hs' : ExactObjects fs' ps ds (timesDensity (densityFactor s fs fs' ps) gs) is' cs' os ser') (hs0 : 0 < s)
    (hlp : s * fp ≤ fp') (hls : s * fs ≤ fs') (nr nc : ℕ) (B : ℝ)
    (hBp : B + ((nr + op : ℕ) + 1) * trapCount gp ≤ fp)
    (hBs : B + (nr + op : ℕ) * trapCount gp + ((nc + os : ℕ) + 1) * trapCount gs ≤ fs) :
    Proportional nr nc s B ((nr + op : ℕ) * trapCount gp + (nc + os : ℕ) * trapCount gs)
      (fun x r c => Ref.readout (wellFill fs ps) ds (gs.map Ref.ofTraps) (Ref.allPasses nc os)
        (fun c => Ref.readout (wellFill fp pp) dp (gp.map Ref.ofTraps) (Ref.allPasses nr op) (fun r => x r c) r) c)
      (fun x r c => Ref.readout (wellFill fs' ps) ds ((timesDensity (densityFactor s fs fs' ps) gs).map Ref.ofTraps)
        (Ref.allPasses nc os)
        (fun c => Ref.readout (wellFill fp' pp) dp ((timesDensity (densityFactor s fp fp' pp) gp).map Ref.ofTraps)
          (Ref.allPasses nr op) (fun r => x r c) r) c) := by
  have hP : ∀ x : ℕ → ℕ → ℝ, (∀ r < nr, ∀ c < nc, max 0 (x r c) ≤ B) → ∀ c < nc, _ := fun x hx c hc =>
    hp.stretch hp' hs0 hlp nr (fun r => x r c) fun r hr => by linarith [hx r hr c hc]
  have hS : ∀ x : ℕ → ℕ → ℝ, (∀ r < nr, ∀ c < nc, max 0 (x r c) ≤ B) → ∀ r < nr, _ := fun x hx r hr =>
    hs.stretch hs' hs0 hls nc
      (fun c => Ref.readout (wellFill fp pp) dp (gp.map Ref.ofTraps) (Ref.allPasses nr op) (fun r => x r c) r)
      fun c hc => by linarith [hx r hr c hc, (hP x hx c hc).2.1 r]
  refine ⟨fun x hx r hr c hc => ?_, fun x hx r hr c hc => ?_, fun x y hxy r hr c hc => ?_, fun x y hxy r hr c hc => ?_⟩
  · refine Eq.trans ?_ (congrFun (hS x hx r hr).1 c)
    refine readout_congr _ _ _ nc _ (allPasses_rows nc os) _ _ (fun c hc => ?_) c hc
    rw [(hP x hx c hc).1]
  · have h1 := (hS x hx r hr).2.2 c
    have h2 := (hP x hx c hc).2.2 r
    change x r c - _ ≤ Ref.readout _ _ _ _ _ _
    linarith
  · exact readout_congr _ _ _ nc _ (allPasses_rows nc os) _ _ (fun c hc =>
      readout_congr _ _ _ nr _ (allPasses_rows nr op) _ _ (fun r hr => hxy r hr c hc) r hr) c hc
  · exact readout_congr _ _ _ nc _ (allPasses_rows nc os) _ _ (fun c hc =>
      readout_congr _ _ _ nr _ (allPasses_rows nr op) _ _ (fun r hr => hxy r hr c hc) r hr) c hc

/-- **C96**, `add_cti` in both directions: `s` times the image, wells of other depths `full' ≥ s full` and densities times
`s (full' / (s full))^power` give `s` times the result. The pixels must stay below the full well depth: each of them with
all traps in all transfers. -/
theorem C96_add_cti (hp : ExactObjects fp pp dp gp ip cp op par) (hs : ExactObjects fs ps ds gs is cs os ser)
    (hp' : ExactObjects fp' pp dp (timesDensity (densityFactor s fp fp' pp) gp) ip' cp' op par')
    (hs' : ExactObjects fs' ps ds (timesDensity (densityFactor s fs fs' ps) gs) is' cs' os ser') (hs0 : 0 < s)
    (hlp : s * fp ≤ fp') (hls : s * fs ≤ fs') (img : Image ℝ) (hnr : 0 < img.nr) (hnc : 0 < img.nc)
    (hroom : ∀ r < img.nr, ∀ c < img.nc, max 0 (img.px r c) + ((img.nr + op : ℕ) + 1) * trapCount gp ≤ fp ∧
      max 0 (img.px r c) + (img.nr + op : ℕ) * trapCount gp + ((img.nc + os : ℕ) + 1) * trapCount gs ≤ fs) :
    ∃ out out', addCtiPy img par .all ser .all none =
        .ok (out, .standard [dp] true true true ip, .standard [ds] true true true is) ∧
      addCtiPy (img.scale s) par' .all ser' .all none =
        .ok (out', .standard [dp] true true true ip', .standard [ds] true true true is') ∧
      out.SameShape img ∧ out'.Same (out.scale s) := by
  obtain ⟨out, g1, g2, g3, g4⟩ := both_run hp hs hnr hnc img rfl rfl
  obtain ⟨out', q1, q2, q3, q4⟩ := both_run hp' hs' hnr hnc (img.scale s) rfl rfl
  refine ⟨out, out', g1, q1, ⟨g2, g3⟩, q2.trans g2.symm, q3.trans g3.symm, fun r hr c hc => ?_⟩
  rw [q2] at hr
  rw [q3] at hc
  have law := both_proportional hp hs hp' hs' hs0 hlp hls img.nr img.nc
    (min (fp - ((img.nr + op : ℕ) + 1) * trapCount gp)
      (fs - ((img.nc + os : ℕ) + 1) * trapCount gs - (img.nr + op : ℕ) * trapCount gp))
    (le_sub_iff_add_le.1 (min_le_left _ _))
    (le_sub_iff_add_le.1 (le_sub_iff_add_le.1 (min_le_right _ _)))
  rw [q4 r hr c hc]
  refine (law.scale img.px (fun r hr c hc => le_min ?_ ?_) r hr c hc).trans ?_
  · linarith [(hroom r hr c hc).1]
  · linarith [(hroom r hr c hc).2]
  · change s * _ = s * out.px r c
    rw [g4 r hr c hc]

/-- **C96**, `remove_cti` in both directions, any number of iterations. -/
theorem C96_remove_cti (hp : ExactObjects fp pp dp gp ip cp op par) (hs : ExactObjects fs ps ds gs is cs os ser)
    (hp' : ExactObjects fp' pp dp (timesDensity (densityFactor s fp fp' pp) gp) ip' cp' op par')
    (hs' : ExactObjects fs' ps ds (timesDensity (densityFactor s fs fs' ps) gs) is' cs' os ser') (hs0 : 0 < s)
    (hlp : s * fp ≤ fp') (hls : s * fs ≤ fs') (img : Image ℝ) (hnr : 0 < img.nr) (hnc : 0 < img.nc)
    (hroom : ∀ r < img.nr, ∀ c < img.nc,
      max 0 (img.px r c) + (2 * (img.nr + op : ℕ) + 1) * trapCount gp + (img.nc + os : ℕ) * trapCount gs ≤ fp ∧
      max 0 (img.px r c) + 2 * (img.nr + op : ℕ) * trapCount gp + (2 * (img.nc + os : ℕ) + 1) * trapCount gs ≤ fs) (n : ℕ) :
    ∃ out out', removeCtiPy img n par .all ser .all none = .ok (out, par.roe, ser.roe) ∧
      removeCtiPy (img.scale s) n par' .all ser' .all none = .ok (out', par'.roe, ser'.roe) ∧
      out.SameShape img ∧ out'.Same (out.scale s) := by
  set B := min (fp - ((img.nr + op : ℕ) + 1) * trapCount gp)
      (fs - ((img.nc + os : ℕ) + 1) * trapCount gs - (img.nr + op : ℕ) * trapCount gp) with hB
  have law := both_proportional hp hs hp' hs' hs0 hlp hls img.nr img.nc B
    (le_sub_iff_add_le.1 (min_le_left _ _))
    (le_sub_iff_add_le.1 (le_sub_iff_add_le.1 (min_le_right _ _)))
  obtain ⟨out, a1, a2, a3⟩ := removeIter_grid (addAgain par ser) (par.roe, ser.roe) img law.congr (fun x hx => by
    obtain ⟨y, y1, y2, y3, y4⟩ := both_run hp hs hnr hnc x hx.1 hx.2
    exact ⟨y, addAgain_both hp hs x y y1, ⟨y2, y3⟩, y4⟩) n
  obtain ⟨out', b1, b2, b3⟩ := removeIter_grid (addAgain par' ser') (par'.roe, ser'.roe) (img.scale s) law.congr'
    (fun x hx => by
      obtain ⟨y, y1, y2, y3, y4⟩ := both_run hp' hs' hnr hnc x hx.1 hx.2
      exact ⟨y, addAgain_both hp' hs' x y y1, ⟨y2, y3⟩, y4⟩) n
  have hD : 0 ≤ ((img.nr + op : ℕ) : ℝ) * trapCount gp + (img.nc + os : ℕ) * trapCount gs :=
    add_nonneg (mul_nonneg (Nat.cast_nonneg _) hp.count_nonneg) (mul_nonneg (Nat.cast_nonneg _) hs.count_nonneg)
  have key := (law.remove hD img.px (fun r hr c hc => by
    obtain ⟨h1, h2⟩ := hroom r hr c hc
    exact le_min (by linarith) (by linarith)) n).2
  refine ⟨out, out', a1, b1, a2, b2.1.trans a2.1.symm, b2.2.trans a2.2.symm, fun r hr c hc => ?_⟩
  have hr' : r < img.nr := by rw [b2.1] at hr; exact hr
  have hc' : c < img.nc := by rw [b2.2] at hc; exact hc
  refine (b3 r hr' c hc').trans ((key r hr' c hc').trans ?_)
  change _ = s * out.px r c
  rw [a3 r hr' c hc']

/-- **C96** for parallel clocking only. -/
theorem C96_parallel (hp : ExactObjects fp pp dp gp ip cp op par)
    (hp' : ExactObjects fp' pp dp (timesDensity (densityFactor s fp fp' pp) gp) ip' cp' op par') (hs0 : 0 < s)
    (hlp : s * fp ≤ fp') (img : Image ℝ) (hnr : 0 < img.nr)
    (hroom : ∀ r < img.nr, ∀ c < img.nc, max 0 (img.px r c) + ((img.nr + op : ℕ) + 1) * trapCount gp ≤ fp) :
    ∃ out out', addCtiPy img par .all .absent .all none = .ok (out, .standard [dp] true true true ip, Roe.default) ∧
      addCtiPy (img.scale s) par' .all .absent .all none = .ok (out', .standard [dp] true true true ip', Roe.default) ∧
      out.SameShape img ∧ out'.Same (out.scale s) := by
  obtain ⟨out, g1, g2, g3, g4⟩ := C55_parallel img hnr fp pp dp gp ip cp op par hp
  obtain ⟨out', q1, q2, q3, q4⟩ := C55_parallel (img.scale s) hnr fp' pp dp _ ip' cp' op par' hp'
  refine ⟨out, out', g1, q1, ⟨g2, g3⟩, q2.trans g2.symm, q3.trans g3.symm, fun r hr c hc => ?_⟩
  rw [q2] at hr
  rw [q3] at hc
  rw [q4 r hr c hc]
  change _ = s * out.px r c
  rw [g4 r hr c hc]
  exact congrFun (hp.stretch hp' hs0 hlp img.nr (fun r => img.px r c) fun r hr => hroom r hr c hc).1 r

theorem timesDensity_one (h : ExactObjects fp pp dp gp ip cp op par) : timesDensity 1 gp = gp := by
  unfold timesDensity
  conv_rhs => rw [← List.map_id gp]
  refine List.map_congr_left fun l hl => ?_
  rw [id]
  conv_rhs => rw [← List.map_id l]
  refine List.map_congr_left fun t ht => ?_
  obtain ⟨d, τ, b, rfl, -⟩ := (h.groups.2 l hl).2 t ht
  simp [Trap.rescale]

/-- **C96**, two models that cannot be told apart below saturation: a full well depth `full'` above `full`, and
`(full' / full)^power` times as many traps of every species. -/
theorem C96_depth (hp : ExactObjects fp pp dp gp ip cp op par)
    (hp' : ExactObjects fp' pp dp (timesDensity ((fp' / fp) ^ pp) gp) ip' cp' op par')
    (hlp : fp ≤ fp') (img : Image ℝ) (hnr : 0 < img.nr)
    (hroom : ∀ r < img.nr, ∀ c < img.nc, max 0 (img.px r c) + ((img.nr + op : ℕ) + 1) * trapCount gp ≤ fp) :
    ∃ out out', addCtiPy img par .all .absent .all none = .ok (out, .standard [dp] true true true ip, Roe.default) ∧
      addCtiPy img par' .all .absent .all none = .ok (out', .standard [dp] true true true ip', Roe.default) ∧
      out.SameShape img ∧ out'.Same out := by
  have e : densityFactor 1 fp fp' pp = (fp' / fp) ^ pp := by unfold densityFactor; rw [one_mul, one_mul]
  have one : ∀ i : Image ℝ, i.scale 1 = i := fun i => by unfold Image.scale; simp only [one_mul]
  have := C96_parallel (s := 1) hp (by rw [e]; exact hp') one_pos (by rw [one_mul]; exact hlp) img hnr hroom
  simpa only [one] using this

/-- **C96**, images of another brightness: `s ≤ 1` times the image and `s^(1-power)` times the traps give `s` times the
result. For a power below one a fainter image suffers more from the same traps. -/
theorem C96_faint (hp : ExactObjects fp pp dp gp ip cp op par)
    (hp' : ExactObjects fp pp dp (timesDensity (s ^ (1 - pp)) gp) ip' cp' op par') (hs0 : 0 < s) (hs1 : s ≤ 1)
    (img : Image ℝ) (hnr : 0 < img.nr)
    (hroom : ∀ r < img.nr, ∀ c < img.nc, max 0 (img.px r c) + ((img.nr + op : ℕ) + 1) * trapCount gp ≤ fp) :
    ∃ out out', addCtiPy img par .all .absent .all none = .ok (out, .standard [dp] true true true ip, Roe.default) ∧
      addCtiPy (img.scale s) par' .all .absent .all none = .ok (out', .standard [dp] true true true ip', Roe.default) ∧
      out.SameShape img ∧ out'.Same (out.scale s) := by
  have e : densityFactor s fp fp pp = s ^ (1 - pp) := by
    unfold densityFactor
    have : fp / (s * fp) = s⁻¹ := by have := hp.full.ne'; field_simp
    rw [this, Real.inv_rpow hs0.le, Real.rpow_sub hs0, Real.rpow_one, div_eq_mul_inv]
  exact C96_parallel hp (by rw [e]; exact hp') hs0 (mul_le_of_le_one_left hp.full.le hs1) img hnr hroom

/-- **C96**, linear wells: `add_cti` in both directions of `s ≤ 1` times an image is `s` times `add_cti` of the image, with
the same CCDs and traps. -/
theorem C96_linear (hp : ExactObjects fp 1 dp gp ip cp op par) (hs : ExactObjects fs 1 ds gs is cs os ser) (hs0 : 0 < s)
    (hs1 : s ≤ 1) (img : Image ℝ) (hnr : 0 < img.nr) (hnc : 0 < img.nc)
    (hroom : ∀ r < img.nr, ∀ c < img.nc, max 0 (img.px r c) + ((img.nr + op : ℕ) + 1) * trapCount gp ≤ fp ∧
      max 0 (img.px r c) + (img.nr + op : ℕ) * trapCount gp + ((img.nc + os : ℕ) + 1) * trapCount gs ≤ fs) :
    ∃ out out', addCtiPy img par .all ser .all none =
        .ok (out, .standard [dp] true true true ip, .standard [ds] true true true is) ∧
      addCtiPy (img.scale s) par .all ser .all none =
        .ok (out', .standard [dp] true true true ip, .standard [ds] true true true is) ∧
      out.SameShape img ∧ out'.Same (out.scale s) := by
  have e : ∀ f : ℝ, 0 < f → densityFactor s f f 1 = 1 := fun f hf => by
    unfold densityFactor
    rw [Real.rpow_one]
    field_simp
  exact C96_add_cti hp hs (by rw [e _ hp.full, timesDensity_one hp]; exact hp)
    (by rw [e _ hs.full, timesDensity_one hs]; exact hs) hs0 (mul_le_of_le_one_left hp.full.le hs1)
    (mul_le_of_le_one_left hs.full.le hs1) img hnr hnc hroom

end main

/-! ### where it fails -/

/-- Above the full well depth there is no such law, not even for linear wells: ten traps in each of two pixels of 100
electrons take 19 of 100 electrons but only 20 of 200. -/
theorem C96_saturated_false :
    (addCti (exImg 2 1 [[0], [200]]) (some (exTraps 1 10)) 0 .all none .all none).map (fun x => x.1.px 1 0) = .ok 180 ∧
      (addCti (exImg 2 1 [[0], [100]]) (some (exTraps 1 10)) 0 .all none .all none).map (fun x => x.1.px 1 0) = .ok 81 ∧
      (81 : ℚ) ≠ 1 / 2 * 180 := by
  refine ⟨?_, ?_, by norm_num⟩ <;> decide +kernel

/-- With a power other than one the same traps do not give proportional results: for the power two, ten traps take ten of 100
electrons and two and a half of 50. -/
theorem C96_same_traps_false :
    (addCti (exImg 1 1 [[100]]) (some exTen) 0 .all none .all none).map (fun x => x.1.px 0 0) = .ok 90 ∧
      (addCti (exImg 1 1 [[50]]) (some exTen) 0 .all none .all none).map (fun x => x.1.px 0 0) = .ok (95 / 2) ∧
      (95 / 2 : ℚ) ≠ 1 / 2 * 90 := by
  refine ⟨?_, ?_, by norm_num⟩ <;> decide +kernel

/-! ### examples -/

/-- A linear well of 1000 electrons in both registers, half a trap per pixel, 20 rows and 3 columns of 100 electrons. -/
example (c : CCD) (d : PyDirection) (h : ExactObjects 1000 1 1 [[.instant (1 / 2) 5 false]] false c 0 d) :
    ∃ out out', addCtiPy ⟨20, 3, fun _ _ => 100⟩ d .all d .all none =
        .ok (out, .standard [1] true true true false, .standard [1] true true true false) ∧
      addCtiPy ⟨20, 3, fun _ _ => 1 / 4 * 100⟩ d .all d .all none =
        .ok (out', .standard [1] true true true false, .standard [1] true true true false) ∧
      ∀ r < 20, ∀ c < 3, out'.px r c = 1 / 4 * out.px r c := by
  obtain ⟨out, out', e1, e2, ⟨e3, e4⟩, e5, e6, e7⟩ := C96_linear h h (s := 1 / 4) (by norm_num) (by norm_num)
    (⟨20, 3, fun _ _ => 100⟩ : Image ℝ) (by norm_num) (by norm_num)
    (fun _ _ _ _ => by simp [trapCount, Trap.density]; norm_num)
  exact ⟨out, out', e1, e2, fun r hr c hc => e7 r ((e5.trans e3).symm ▸ hr) c ((e6.trans e4).symm ▸ hc)⟩

/-- Square-root wells of 10000 electrons: a quarter of the image with half of the traps. -/
example (c : CCD) (d d' : PyDirection) (h : ExactObjects 10000 (1 / 2) 1 [[.instant 2 5 false]] false c 0 d)
    (h' : ExactObjects 10000 (1 / 2) 1 [[.instant 1 5 false]] false c 0 d') :
    ∃ out out', addCtiPy ⟨20, 3, fun _ _ => 400⟩ d .all .absent .all none =
        .ok (out, .standard [1] true true true false, Roe.default) ∧
      addCtiPy ⟨20, 3, fun _ _ => 1 / 4 * 400⟩ d' .all .absent .all none =
        .ok (out', .standard [1] true true true false, Roe.default) ∧
      ∀ r < 20, ∀ c < 3, out'.px r c = 1 / 4 * out.px r c := by
  have e : ((1 / 4 : ℝ)) ^ (1 - 1 / 2 : ℝ) = 1 / 2 := by
    rw [show (1 / 4 : ℝ) = (1 / 2) ^ (2 : ℝ) by norm_num, ← Real.rpow_mul (by norm_num)]
    norm_num
  obtain ⟨out, out', e1, e2, ⟨e3, e4⟩, e5, e6, e7⟩ := C96_faint (s := 1 / 4) (par' := d') (ip' := false) (cp' := c) h
    (by rw [e]; simpa [timesDensity, Trap.rescale] using h') (by norm_num) (by norm_num)
    (⟨20, 3, fun _ _ => 400⟩ : Image ℝ) (by norm_num) (fun _ _ _ _ => by simp [trapCount, Trap.density]; norm_num)
  exact ⟨out, out', e1, e2, fun r hr c hc => e7 r ((e5.trans e3).symm ▸ hr) c ((e6.trans e4).symm ▸ hc)⟩

/-- Wells of 1000 electrons and wells of 4000 electrons with twice as many traps: the same image for the power one half. -/
example (c c' : CCD) (d d' : PyDirection) (h : ExactObjects 1000 (1 / 2) 1 [[.instant 2 5 false]] false c 0 d)
    (h' : ExactObjects 4000 (1 / 2) 1 [[.instant 4 5 false]] false c' 0 d') :
    ∃ out out', addCtiPy ⟨20, 3, fun _ _ => 400⟩ d .all .absent .all none =
        .ok (out, .standard [1] true true true false, Roe.default) ∧
      addCtiPy ⟨20, 3, fun _ _ => 400⟩ d' .all .absent .all none =
        .ok (out', .standard [1] true true true false, Roe.default) ∧ out'.Same out := by
  have e : ((4000 / 1000 : ℝ)) ^ (1 / 2 : ℝ) = 2 := by
    rw [show (4000 / 1000 : ℝ) = 2 ^ (2 : ℝ) by norm_num, ← Real.rpow_mul (by norm_num)]
    norm_num
  obtain ⟨out, out', e1, e2, -, e5⟩ := C96_depth (fp' := 4000) (par' := d') (ip' := false) (cp' := c') h
    (by rw [e]; simpa [timesDensity, Trap.rescale, show (2 * 2 : ℝ) = 4 by norm_num] using h') (by norm_num)
    (⟨20, 3, fun _ _ => 400⟩ : Image ℝ) (by norm_num) (fun _ _ _ _ => by simp [trapCount, Trap.density]; norm_num)
  exact ⟨out, out', e1, e2, e5⟩

end Arctic
