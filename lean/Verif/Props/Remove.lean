import Verif.Lemmas.Same
import Verif.Props.Clock
import Verif.Props.ClockExamples
import Verif.Lemmas.InstantStep

/-!
# Removal of CTI (C36)
-/

set_option linter.unusedSectionVars false
set_option linter.unusedVariables false
set_option linter.unusedSimpArgs false

namespace Arctic

variable {K : Type} [Field K] [LinearOrder K] [IsStrictOrderedRing K]

/-- The improved estimate: `estimate + (image - added)`. -/
def improve (img cur added : Image K) : Image K :=
  { cur with px := fun r c => cur.px r c + (img.px r c - added.px r c) }

theorem removeIter_succ {S : Type} (add : Image K → S → Except Err (Image K × S)) (img : Image K) (n : ℕ) :
    ∀ st, removeIter add img (n + 1) st = (removeIter add img n st >>= fun x => add x.1 x.2 >>= fun y =>
      .ok (improve img x.1 y.1, y.2)) := by
  induction n with
  | zero =>
    rintro ⟨cur, s⟩
    simp only [removeIter]
    rfl
  | succ n ih =>
    rintro ⟨cur, s⟩
    change (add cur s >>= fun y => removeIter add img (n + 1) (improve img cur y.1, y.2)) = _
    have : removeIter add img (n + 1) (cur, s) = (add cur s >>= fun y =>
        removeIter add img n (improve img cur y.1, y.2)) := rfl
    rw [this]
    cases add cur s with
    | error e => rfl
    | ok y => exact ih (improve img cur y.1, y.2)

/-- **C36**: no iterations return the image itself. -/
theorem C36_zero (img : Image K) (par ser : Option (Direction K)) (o : ℕ) (pw sw : Window) (tw : Option (List ℕ)) :
    removeCti img 0 par o pw ser sw tw = .ok (img, par, ser) := rfl

/-- **C36**: one more iteration runs `add_cti` on the estimate so far (with the readout objects as earlier iterations
left them) and adds what the image has more than the outcome, pixel by pixel. -/
theorem C36_iteration (img : Image K) (n : ℕ) (par ser : Option (Direction K)) (o : ℕ) (pw sw : Window)
    (tw : Option (List ℕ)) (out : Image K) (par' ser' : Option (Direction K)) :
    removeCti img (n + 1) par o pw ser sw tw = .ok (out, par', ser') ↔
      ∃ cur p s added, removeCti img n par o pw ser sw tw = .ok (cur, p, s) ∧
        addCti cur p o pw s sw tw = .ok (added, par', ser') ∧ out.nr = cur.nr ∧ out.nc = cur.nc ∧
        ∀ r c, out.px r c = cur.px r c + (img.px r c - added.px r c) := by
  unfold removeCti
  rw [removeIter_succ]
  constructor
  · intro h
    obtain ⟨⟨cur, p, s⟩, h1, h⟩ := bind_eq_ok h
    obtain ⟨⟨added, p', s'⟩, h2, h⟩ := bind_eq_ok h
    injection h with h
    injection h with h3 h4
    injection h4 with h4 h5
    subst h3 h4 h5
    exact ⟨cur, p, s, added, h1, h2, rfl, rfl, fun r c => rfl⟩
  · rintro ⟨cur, p, s, added, h1, h2, h3, h4, h5⟩
    rw [h1]
    change (addCti cur p o pw s sw tw >>= _) = _
    rw [h2]
    have : improve img cur added = out := by
      obtain ⟨nr, nc, px⟩ := out
      simp only at h3 h4 h5
      simp only [improve, h3, h4, Image.mk.injEq, true_and]
      funext r c
      exact (h5 r c).symm
    simp only [bind, Except.bind, this]

/-- **C36**: the shape stays. -/
theorem C36_shape (img : Image K) (n : ℕ) (par ser : Option (Direction K)) (o : ℕ) (pw sw : Window)
    (tw : Option (List ℕ)) (out : Image K) (par' ser' : Option (Direction K))
    (h : removeCti img n par o pw ser sw tw = .ok (out, par', ser')) : out.nr = img.nr ∧ out.nc = img.nc := by
  induction n generalizing out par' ser' with
  | zero => rw [C36_zero] at h; injection h with h; injection h with h _; rw [h]; exact ⟨rfl, rfl⟩
  | succ n ih =>
    obtain ⟨cur, p, s, added, h1, h2, h3, h4, -⟩ := (C36_iteration img n par ser o pw sw tw out par' ser').1 h
    obtain ⟨h5, h6⟩ := ih cur p s h1
    exact ⟨h3.trans h5, h4.trans h6⟩

/-- **C36**: an estimate from which `add_cti` reproduces the image (leaving the readout objects as they are) is never
changed again. -/
theorem C36_fixed_point (img cur added : Image K) (n : ℕ) (par ser p s : Option (Direction K)) (o : ℕ) (pw sw : Window)
    (tw : Option (List ℕ)) (h : removeCti img n par o pw ser sw tw = .ok (cur, p, s))
    (hadd : addCti cur p o pw s sw tw = .ok (added, p, s)) (hrep : added.Same img) (m : ℕ) :
    ∃ out, removeCti img (n + m) par o pw ser sw tw = .ok (out, p, s) ∧ out.Same cur := by
  induction m with
  | zero => exact ⟨cur, h, Image.Same.refl _⟩
  | succ m ih =>
    obtain ⟨out, h1, h2⟩ := ih
    obtain ⟨⟨added', p', s'⟩, h3, h4, h5⟩ := (addCti_same h2.symm p s o pw sw tw).ok_left hadd
    simp only [Prod.mk.injEq] at h4 h5
    obtain ⟨rfl, rfl⟩ := h5
    refine ⟨improve img out added', (C36_iteration img (n + m) par ser o pw sw tw _ _ _).2
      ⟨out, p, s, added', h1, h3, rfl, rfl, fun r c => rfl⟩, ⟨h2.nr, h2.nc, fun r hr c hc => ?_⟩⟩
    have h6 := addCti_shape h3
    have hr' : r < added'.nr := by rw [h6.1]; exact hr
    have hc' : c < added'.nc := by rw [h6.2]; exact hc
    have h7 := (h4.symm.trans hrep).px r hr' c hc'
    simp only [improve]
    rw [h7, sub_self, add_zero]
    exact h2.px r hr c hc

/-- **C36**: without traps any number of iterations returns the image. -/
theorem C36_no_traps (img : Image K) (n : ℕ) (o : ℕ) (pw sw : Window) :
    ∃ out, removeCti img n none o pw none sw none = .ok (out, none, none) ∧ out.Same img := by
  have := C36_fixed_point img img img 0 none none none none o pw sw none rfl (C29_no_traps img o pw sw)
    (Image.Same.refl _) n
  simpa using this

/-- **C36**: pixels that adding CTI cannot touch are returned as they are. -/
theorem C36_untouched (img : Image K) (n : ℕ) (par ser : Option (Direction K)) (o : ℕ) (pw sw : Window)
    (hpi : ∀ d ∈ par, ∀ dw b f i, d.roe ≠ .injection dw none b f i)
    (hsi : ∀ d ∈ ser, ∀ dw b f i, d.roe ≠ .injection dw none b f i)
    (hp : ∀ d ∈ par, d.roe.force = true) (hs : ∀ d ∈ ser, d.roe.force = true)
    (r c : ℕ) (hr : r < img.nr) (hc : c < img.nc)
    (h1 : par = none ∨ c ∉ sw.resolve img.nc ∨ ¬ nearWindow (pw.resolve img.nr) r)
    (h2 : ser = none ∨ r ∉ pw.resolve img.nr ∨ ¬ nearWindow (sw.resolve img.nc) c)
    (out : Image K) (par' ser' : Option (Direction K))
    (h : removeCti img n par o pw ser sw none = .ok (out, par', ser')) :
    out.px r c = img.px r c ∧ par' = par ∧ ser' = ser := by
  induction n generalizing out par' ser' with
  | zero => rw [C36_zero] at h; injection h with h; injection h with h h'; injection h' with h3 h4
            exact ⟨by rw [h], h3.symm, h4.symm⟩
  | succ n ih =>
    have hsh := C36_shape _ _ _ _ _ _ _ _ _ _ _ h
    obtain ⟨cur, p, s, added, g1, g2, g3, g4, g5⟩ := (C36_iteration img n par ser o pw sw none out par' ser').1 h
    obtain ⟨e1, rfl, rfl⟩ := ih cur p s g1
    have hsc := C36_shape _ _ _ _ _ _ _ _ _ _ _ g1
    have e2 := C30_add_cti cur added p s par' ser' o pw sw g2 hp hs r c (by omega) (by omega)
      (by rw [hsc.1, hsc.2]; exact h1) (by rw [hsc.1, hsc.2]; exact h2)
    refine ⟨by rw [g5, e2, e1, sub_self, add_zero], ?_⟩
    obtain ⟨sc, mid, -, k1, k2⟩ := addCti_ok g2
    refine ⟨?_, ?_⟩
    · rcases k1 with ⟨rfl, -, rfl⟩ | ⟨d, roe', rfl, rfl, k1⟩
      · rfl
      · obtain ⟨cfg, st, q1, -⟩ := clockCharge_ok k1
        obtain ⟨f1, -⟩ := clockCfg_fields q1
        rw [C10_unchanged _ _ _ _ _ _ _ _ (hpi d rfl) f1]
    · rcases k2 with ⟨rfl, -, rfl⟩ | ⟨d, roe', res, rfl, rfl, -, k2⟩
      · rfl
      · obtain ⟨cfg, st, q1, -⟩ := clockCharge_ok k2
        obtain ⟨f1, -⟩ := clockCfg_fields q1
        rw [C10_unchanged _ _ _ _ _ _ _ _ (hsi d rfl) f1]

/-- All pixels of the two images differ by at most `B`. -/
def Image.Near (B : K) (i j : Image K) : Prop :=
  i.nr = j.nr ∧ i.nc = j.nc ∧ ∀ r < i.nr, ∀ c < i.nc, |i.px r c - j.px r c| ≤ B

/-- **C36**: convergence. Let `truth` be an image whose CTI-affected version is the given image. If for every estimate
in a neighbourhood of `truth` the CTI added to the estimate differs from the CTI added to `truth` by at most `q` times
the distance of the estimate, then `n` iterations leave an error of at most `q ^ n` times the initial one. -/
theorem C36_convergence (img truth : Image K) (par ser : Option (Direction K)) (o : ℕ) (pw sw : Window)
    (tw : Option (List ℕ)) (q B : K) (hq0 : 0 ≤ q) (hq1 : q ≤ 1) (hB : 0 ≤ B) (h0 : Image.Near B img truth)
    (hadd : ∀ x : Image K, ∀ b, 0 ≤ b → b ≤ B → Image.Near b x truth →
      ∃ y, addCti x par o pw ser sw tw = .ok (y, par, ser) ∧
        ∀ r < x.nr, ∀ c < x.nc, |(y.px r c - x.px r c) - (img.px r c - truth.px r c)| ≤ q * b) (n : ℕ) :
    ∃ out, removeCti img n par o pw ser sw tw = .ok (out, par, ser) ∧ Image.Near (q ^ n * B) out truth := by
  induction n with
  | zero => exact ⟨img, rfl, by simpa using h0⟩
  | succ n ih =>
    obtain ⟨cur, h1, h2⟩ := ih
    have hqn : q ^ n ≤ 1 := pow_le_one₀ hq0 hq1
    have hqn0 : 0 ≤ q ^ n := pow_nonneg hq0 n
    obtain ⟨y, h3, h4⟩ := hadd cur (q ^ n * B) (mul_nonneg hqn0 hB) (mul_le_of_le_one_left hB hqn) h2
    refine ⟨improve img cur y, (C36_iteration img n par ser o pw sw tw _ _ _).2
      ⟨cur, par, ser, y, h1, h3, rfl, rfl, fun r c => rfl⟩, h2.1, h2.2.1, fun r hr c hc => ?_⟩
    have h5 := h4 r hr c hc
    rw [abs_sub_comm] at h5
    have e : (improve img cur y).px r c - truth.px r c =
        img.px r c - truth.px r c - (y.px r c - cur.px r c) := by
      simp only [improve]; ring
    rw [e, pow_succ']
    rwa [mul_assoc]

/-! ### a pixel for which all hypotheses of convergence hold -/

/-- Parallel clocking of the examples. -/
def exPar : Direction ℚ := ⟨exCcd, exRoe, [exGroup], 0, 0⟩

theorem exCfg1 : ∃ cfg, clockCfg exRoe exCcd 0 0 [0] (some [0]) = .ok (cfg, exRoe) ∧ cfg.expr.nr = 1 ∧ cfg.expr.nc = 1 ∧
    monitoredRows cfg 0 = [0] ∧ cfg.expr.e 0 0 = 1 ∧ cfg.saveMat.e 0 0 = false ∧ cfg.steps = [0] ∧ cfg.phases = [0] ∧
    cfg.rowWindow = [0] ∧ cfg.dwell = [1] ∧ cfg.emptyBetween = true ∧ cfg.clockSeq = exRoe.clockSequence := by
  refine ⟨_, rfl, ?_, ?_, ?_, ?_, ?_, ?_, ?_, rfl, rfl, rfl, rfl⟩ <;> decide +kernel

theorem exSeq1 : exRoe.clockSequence = [[⟨true, 0, [(0, 1)]⟩]] := by 
  decide +kernel
theorem exAcc : nPadding exRoe.accessed = 0 := by decide +kernel
theorem exPixel_step (x : ℚ) (hx : 0 ≤ x) (hx2 : x ≤ 100) :
    ∃ net m, (Mgr.new (fun _ : Fin 1 => 10 * 1) exGroup.kind 1).step x 1 fill100 = .ok (net, m) ∧ net = - x / 10 := by
  obtain ⟨net, wm', h1, -, h2, -, h3, -⟩ := instantStep_active (fun _ : Fin 1 => (10 * 1:ℚ)) (fun _ => 1/2) fill100 fill100_model (by intro; norm_num)
    (by intro j; norm_num) x [] 0 (by simp [Pos]) (by simp [volSum]) (by simp)
  refine ⟨net, ⟨1, fun _ => 10 * 1, exGroup.kind, wm'⟩, ?_, ?_⟩
  · change (icStep (instantOps (fun _ : Fin 1 => (10 * 1:ℚ)) fun _ => 1 / 2) fill100 x (Z 2) >>= _) = _
    have h1' : icStep (instantOps (fun _ : Fin 1 => (10 * 1:ℚ)) fun _ => 1 / 2) fill100 x (Z 2) = .ok (net, wm') := h1
    rw [h1']
    rfl
  · simp [CaptureSpec, available, released, Z, electrons, vacant, zeroRow, fill100] at h3
    have e : x / 100 ≤ 1 := by linarith
    have e0 : 0 ≤ x / 100 := by positivity
    rw [max_eq_right hx, min_eq_right e, max_eq_right e0, min_eq_right (by linarith)] at h3
    linarith
/-- Clocking one pixel of `x` electrons removes a tenth of them. -/
theorem exPixel (x : ℚ) (hx : 0 ≤ x) (hx2 : x ≤ 100) (px : ℕ → ℕ → ℚ) (h : px 0 0 = x) :
    ∃ y, addCti (⟨1,1,px⟩ : Image ℚ) (some exPar) 0 .all none .all none = .ok (y, some exPar, none) ∧ y.px 0 0 = 9/10 * x := by
  obtain ⟨cfg, h1, h2, h3, h4, h5, h6, h7, h8, h9, h10, h11, h12⟩ := exCfg1
  obtain ⟨net, m, hm, hn⟩ := exPixel_step x hx hx2
  have hmax : maxNTransfers exRoe cfg = 1 := by simp [maxNTransfers, Roe.isPumping, exRoe, h3, h7]
  have hr : ((⟨1, 1, px⟩ : Image ℚ).pad 0).read 0 0 = .ok x := by simp [Image.read, Image.pad, h]
  have key : clockCharge (⟨1,1,px⟩ : Image ℚ) exCcd exRoe [exGroup] 0 0 [0] [0] (some [0]) = .ok
    ((((⟨1,1,px⟩ : Image ℚ).pad 0).set 0 0 (if x + net < 0 then 0 else x + net)).unpad 0, exRoe) := by
    unfold clockCharge
    rw [h1]
    simp only [bind, Except.bind, hmax, exAcc, clockLoops, List.foldlM_cons, List.foldlM_nil, columnBody, h2, List.range_one, expressBody, h4, rowBody, h7, stepBody, h8, h5, h6, phaseBody, h12, exSeq1, h9, h10, List.getElem?_cons_zero, Option.bind_some, Nat.cast_zero, add_zero, zero_add, hr, Bool.false_eq_true, if_false, pure, Except.pure, atmSys, ATM.react, ATM.restore, ATM.new, exCcd, List.map_cons, List.map_nil]
    simp [groupsStep, ATM.emptyAll, exGroup, Mgr.empty, Mgr.new, zeroRow] at hm ⊢
    rw [hm]
    simp only [bind, Except.bind, writeAll, writeBack, add_zero, zero_add, hr, mul_one, Int.toNat_zero]
  refine ⟨_, by
    rw [addCti_par]
    exact congrArg (Except.map _) key, ?_⟩
  have : ¬ x + net < 0 := by rw [hn]; linarith
  rw [if_neg this, hn]
  simp [Image.unpad, Image.set]
  ring

/-- Thus convergence holds for the pixel: from 45 electrons the estimates reach 50 with an error divided by ten every iteration. -/
example (n : ℕ) : ∃ out, removeCti (⟨1, 1, fun _ _ => 45⟩ : Image ℚ) n (some exPar) 0 .all none .all none = .ok (out, some exPar, none) ∧
    Image.Near ((1 / 10) ^ n * 5) out (⟨1, 1, fun _ _ => 50⟩ : Image ℚ) := by
  refine C36_convergence (⟨1, 1, fun _ _ => 45⟩ : Image ℚ) ⟨1, 1, fun _ _ => 50⟩ (some exPar) none 0 .all .all none (1 / 10) 5 (by norm_num) (by norm_num) (by norm_num) ⟨rfl, rfl, fun r _ c _ => by norm_num [abs_le]⟩ ?_ n
  rintro ⟨nr, nc, px⟩ b hb0 hb ⟨h1, h2, h3⟩
  obtain rfl : nr = 1 := h1
  obtain rfl : nc = 1 := h2
  have h4 := h3 0 (by simp) 0 (by simp)
  simp only [abs_le] at h4
  obtain ⟨y, hy, hy2⟩ := exPixel (px 0 0) (by linarith) (by linarith) px rfl
  refine ⟨y, hy, fun r hr c hc => ?_⟩
  obtain rfl : r = 0 := by simpa using hr
  obtain rfl : c = 0 := by simpa using hc
  rw [hy2, abs_le]
  constructor <;> linarith
end Arctic
