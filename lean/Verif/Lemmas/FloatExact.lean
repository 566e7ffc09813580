import Verif.Model.Float
import Mathlib.Algebra.BigOperators.Fin

/-!
# With exact arithmetic the generic functions are the model's
-/

set_option linter.unusedSectionVars false
set_option linter.unusedVariables false

namespace Arctic.Fp

open Arctic

variable {K : Type} [Field K] [LinearOrder K] {s : ℕ}

local notation "X" => Arith.exact K

theorem foldl_add_sum {α : Type} (f : α → K) (l : List α) :
    ∀ t : K, l.foldl (fun t a => t + f a) t = t + (l.map f).sum := by
  induction l with
  | nil => intro t; simp
  | cons a l ih => intro t; rw [List.foldl_cons, ih, List.map_cons, List.sum_cons, add_assoc]

theorem exact_valueInCumsumLoop (v : K) (l : List K) :
    ∀ t, valueInCumsumLoop X v t l = Arctic.valueInCumsumLoop v t l := by
  induction l with
  | nil => intro t; rfl
  | cons a l ih =>
    intro t
    unfold valueInCumsumLoop Arctic.valueInCumsumLoop
    rw [ih]
    by_cases h : v = t <;> simp [Arith.exact, h]

theorem exact_cyValueInCumsum (v : K) (l : List K) : cyValueInCumsum X v l = Arctic.cyValueInCumsum v l := by
  cases l with
  | nil => rfl
  | cons a l => exact exact_valueInCumsumLoop v l a

theorem exact_cyNTrapped (wm : WM K s) (dens : Fin s → K) : cyNTrapped X wm dens = Arctic.cyNTrapped wm dens := by
  unfold cyNTrapped Arctic.cyNTrapped
  have h : ∀ (r : Row K s) (t : K), (List.finRange s).foldl
      (fun t j => (X).add t ((X).mul ((X).mul r.vol (r.fill j)) (dens j))) t
      = t + ∑ j, r.vol * r.fill j * dens j := by
    intro r t
    have := foldl_add_sum (fun j => r.vol * r.fill j * dens j) (List.finRange s) t
    rw [← List.ofFn_eq_map, List.sum_ofFn] at this
    exact this
  simp only [h]
  have := foldl_add_sum (fun r : Row K s => ∑ j, r.vol * r.fill j * dens j) wm 0
  rw [zero_add] at this
  exact this

theorem exact_indexAboveLoop (c : K) (l : List K) :
    ∀ t i n, indexAboveLoop X c l t i n = Arctic.indexAboveLoop c l t i n := by
  induction l with
  | nil => intro t i n; rfl
  | cons a l ih =>
    intro t i n
    unfold indexAboveLoop Arctic.indexAboveLoop
    rw [ih]
    simp only [Arith.exact, decide_eq_true_eq]

theorem exact_index (c : K) (wm : WM K s) (m : ℤ) :
    watermarkIndexAboveCloud X c wm m = Arctic.watermarkIndexAboveCloud c wm m := by
  unfold watermarkIndexAboveCloud Arctic.watermarkIndexAboveCloud cyIndexAbove Arctic.cyIndexAbove
  rw [exact_indexAboveLoop]
  simp only [Arith.exact, decide_eq_true_eq]

theorem exact_cyUpdateVolumes (wm : WM K s) (c : K) (i : ℕ) :
    cyUpdateVolumes X wm c i = Arctic.cyUpdateVolumes wm c i := by
  unfold cyUpdateVolumes Arctic.cyUpdateVolumes
  have h : ((wm.take (i + 1)).map Row.vol).foldl (X).add (X).zero = ((wm.take (i + 1)).map Row.vol).sum := by
    have := foldl_add_sum (fun x : K => x) ((wm.take (i + 1)).map Row.vol) 0
    rw [zero_add, List.map_id'] at this
    exact this
  rw [h]
  rfl

theorem exact_updateVolumes (wm : WM K s) (c : K) (i : ℤ) : updateVolumes X wm c i = Arctic.updateVolumes wm c i := by
  unfold updateVolumes Arctic.updateVolumes
  rw [exact_cyUpdateVolumes]

theorem exact_maxWatermarkIndex (wm : WM K s) : maxWatermarkIndex X wm = Arctic.maxWatermarkIndex wm := rfl

theorem exact_notEnough (wm init : WM K s) (e : K) : notEnough X wm init e = Arctic.notEnough wm init e := rfl

theorem exact_indexNotFilled (f : K) (wm : WM K s) : indexNotFilled X f wm = Arctic.indexNotFilled f wm := by
  unfold indexNotFilled Arctic.indexNotFilled
  simp only [Arith.exact, ← decide_not, ne_eq]

theorem exact_collapse (f : K) (wm : WM K s) : collapse X f wm = Arctic.collapse f wm := by
  unfold collapse Arctic.collapse
  rw [exact_indexNotFilled]
  rfl

theorem exact_collapseCopy (f : K) (wm copy : WM K s) : collapseCopy X f wm copy = Arctic.collapseCopy f wm copy := by
  unfold collapseCopy Arctic.collapseCopy
  rw [exact_indexNotFilled]
  rfl

theorem exact_splitAtCloud (c : K) (i m : ℤ) (wm init : WM K s) :
    splitAtCloud X c i m wm init = Arctic.splitAtCloud c i m wm init := by
  unfold splitAtCloud Arctic.splitAtCloud
  simp only [exact_cyValueInCumsum, exact_updateVolumes, gt_iff_lt]
  simp only [Arith.exact, decide_eq_true_eq]

theorem exact_pyDiv {a b : K} (h : b ≠ 0) : pyDiv X a b = .ok (a / b) := by
  unfold pyDiv
  rw [if_neg]
  · rfl
  · simpa [Arith.exact] using h

theorem exact_slowFirstCapture (dens : Fin s → K) (n c : K) (init : WM K s) (p : Fin s → K) (wm : WM K s) :
    slowFirstCapture X dens n c init p wm = .ok (Arctic.slowFirstCapture dens n c init p wm) := by
  unfold slowFirstCapture Arctic.slowFirstCapture
  simp only [exact_cyNTrapped, exact_notEnough]
  generalize hf : Arctic.cyNTrapped (wm.modify 0 fun _ => ⟨c, p⟩) dens = f
  by_cases h : f = 0
  · rw [if_pos (by simpa [Arith.exact] using h), if_pos h]; rfl
  · rw [if_neg (by simpa [Arith.exact] using h), if_neg h, exact_pyDiv h]
    by_cases h1 : n / f < 1 <;> simp only [bind, Except.bind, Arith.exact, decide_eq_true_eq, h1, if_true, if_false] <;> rfl

theorem exact_newTopWatermark (c : K) (i : ℤ) (wm init : WM K s) :
    newTopWatermark X c i wm init = Arctic.newTopWatermark c i wm init := rfl

theorem exact_finishCapture (f : K) (tr : WM K s → K) (tw : WM K s → WM K s → K → Except Err (WM K s)) (n n0 : K)
    (wm init : WM K s) : finishCapture X f tr tw n n0 wm init = Arctic.finishCapture f tr tw n n0 wm init := by
  unfold finishCapture Arctic.finishCapture
  simp only [exact_collapseCopy, exact_collapse]
  generalize Arctic.collapseCopy f wm init = w
  obtain ⟨w1, w2⟩ := w
  simp only
  by_cases h : tr w1 = n0
  · rw [if_pos (by simpa [Arith.exact] using h), if_pos h]; rfl
  · rw [if_neg (by simpa [Arith.exact] using h), if_neg h]
    have := exact_pyDiv (a := n) (sub_ne_zero.2 h)
    change (pyDiv X n (tr w1 - n0) >>= _) = _
    rw [this]
    simp only [bind, Except.bind, Arith.exact, decide_eq_true_eq]

theorem exact_slowCloudBelow (dens : Fin s → K) (fill : K → K) (n c : K) (init : WM K s) (i m : ℤ) (p : Fin s → K)
    (n0 : K) (wm : WM K s) :
    slowCloudBelow X dens fill n c init i m p n0 wm = Arctic.slowCloudBelow dens fill n c init i m p n0 wm := by
  unfold slowCloudBelow Arctic.slowCloudBelow
  simp only [exact_splitAtCloud, exact_cyNTrapped, exact_index]
  rfl

theorem exact_slowStep (dens : Fin s → K) (p : Probs K s) (fill : K → K) (n : K) (wm : WM K s) :
    slowStep X dens p fill n wm = Arctic.slowStep dens p fill n wm := by
  unfold slowStep Arctic.slowStep
  simp only [exact_cyNTrapped, exact_maxWatermarkIndex, exact_index, exact_slowFirstCapture, exact_slowCloudBelow,
    exact_newTopWatermark, exact_finishCapture, exact_notEnough]
  simp only [Arith.exact, decide_eq_true_eq, gt_iff_lt]
  rfl

theorem exact_icFirstCapture (ops : ICOps K s) (n c : K) (init wm : WM K s) :
    icFirstCapture X ops n c init wm = Arctic.icFirstCapture ops n c init wm := by
  unfold icFirstCapture Arctic.icFirstCapture
  simp only
  generalize hf : ops.trapped (wm.modify 0 fun _ => ⟨c, fun _ => ops.filled⟩) = f
  by_cases h : f = 0
  · rw [if_pos (by simpa [Arith.exact] using h), if_pos h]; rfl
  · rw [if_neg (by simpa [Arith.exact] using h), if_neg h, exact_pyDiv h]
    simp only [bind, Except.bind, Arith.exact, decide_eq_true_eq]
    rfl

theorem exact_icCapture (ops : ICOps K s) (fill : K → K) (n : K) (wm : WM K s) :
    icCapture X ops fill n wm = Arctic.icCapture ops fill n wm := by
  unfold icCapture Arctic.icCapture
  simp only [exact_maxWatermarkIndex, exact_index, exact_icFirstCapture, exact_splitAtCloud, exact_newTopWatermark,
    exact_finishCapture]
  simp only [Arith.exact, decide_eq_true_eq, gt_iff_lt]
  rfl

theorem exact_icStep (ops : ICOps K s) (fill : K → K) (n : K) (wm : WM K s) :
    icStep X ops fill n wm = Arctic.icStep ops fill n wm := by
  unfold icStep Arctic.icStep
  simp only [exact_icCapture]
  rfl

theorem exact_instantOps (dens p : Fin s → K) : instantOps X dens p = Arctic.instantOps dens p := by
  unfold instantOps Arctic.instantOps
  simp only [exact_cyNTrapped]
  rfl

theorem exact_trackTimeOps (dens : Fin s → K) (conv : Fin s → K → K) (t : K) :
    trackTimeOps X dens conv t = Arctic.trackTimeOps dens conv t := by
  unfold trackTimeOps Arctic.trackTimeOps
  simp only [exact_cyNTrapped]
  rfl

theorem exact_step (m : Mgr K) (n t : K) (fill : K → K) : step X m n t fill = m.step n t fill := by
  unfold step Mgr.step
  cases m.kind <;> simp only [exact_slowStep, exact_instantOps, exact_trackTimeOps, exact_icStep]

theorem exact_nTrapped (m : Mgr K) : nTrapped X m = m.nTrapped := by
  unfold nTrapped Mgr.nTrapped
  cases m.kind <;> simp only [exact_cyNTrapped] <;> rfl

theorem exact_currently (a : ATM K) : currently X a = a.currently := by
  unfold currently ATM.currently
  simp only [exact_nTrapped]
  have h : ∀ (ms : List (Mgr K)) (t : K), ms.foldl (fun t m => (X).add t m.nTrapped) t = t + (ms.map Mgr.nTrapped).sum :=
    fun ms t => foldl_add_sum Mgr.nTrapped ms t
  simp only [h]
  have := foldl_add_sum (fun ms : List (Mgr K) => (ms.map Mgr.nTrapped).sum) a.data 0
  rw [zero_add] at this
  exact this

theorem exact_groupsStep (n t : K) (fill : K → K) (ms : List (Mgr K)) :
    ∀ acc, groupsStep X n t fill acc ms = (Arctic.groupsStep n t fill ms).map fun r => (acc + r.1, r.2) := by
  induction ms with
  | nil => intro acc; simp [groupsStep, Arctic.groupsStep, Except.map]
  | cons m ms ih =>
    intro acc
    unfold groupsStep Arctic.groupsStep
    rw [exact_step]
    cases m.step n t fill with
    | error e => rfl
    | ok v =>
      obtain ⟨net, m'⟩ := v
      change (groupsStep X n t fill (acc + net) ms >>= _) = Except.map _ (Arctic.groupsStep n t fill ms >>= _)
      rw [ih]
      cases Arctic.groupsStep n t fill ms with
      | error e => rfl
      | ok w =>
        change Except.ok (acc + net + w.1, m' :: w.2) = Except.ok (acc + (net + w.1), m' :: w.2)
        rw [add_assoc]

theorem exact_react (a : ATM K) (ph : ℕ) (n t : K) (fill : K → K) : react X a ph n t fill = a.react ph n t fill := by
  unfold react ATM.react
  cases a.data[ph]? with
  | none => rfl
  | some ms =>
    simp only [exact_groupsStep]
    cases Arctic.groupsStep n t fill ms with
    | error e => rfl
    | ok w =>
      change Except.ok ((0 : K) + w.1, _) = Except.ok (w.1, _)
      rw [zero_add]

theorem exact_restore (a : ATM K) : restore X a = a.restore := by
  unfold restore ATM.restore
  simp only [exact_currently]
  rfl

theorem exact_save (a : ATM K) : save X a = a.save := by
  unfold save ATM.save
  simp only [exact_currently]

theorem exact_atmSys (fill : ℕ → K → K) : atmSys X fill = Arctic.atmSys fill := by
  unfold atmSys Arctic.atmSys
  have h1 : restore X = ATM.restore := funext exact_restore
  have h2 : save X = ATM.save := funext exact_save
  simp only [h1, h2, exact_react]
  rfl

variable {S : Type}

theorem exact_writeAll (row0 : ℤ) (c : ℕ) (net mult : K) (rel : List (ℤ × K)) :
    ∀ img : Image K, writeAll X img row0 c net mult rel = Arctic.writeAll img row0 c net mult rel := by
  induction rel with
  | nil => intro img; rfl
  | cons o rel ih =>
    intro img
    obtain ⟨off, frac⟩ := o
    unfold writeAll Arctic.writeAll
    simp only [ih]
    have h : ∀ (r : ℤ) (d : K), writeBack X img r c d = Arctic.writeBack img r c d := by
      intro r d
      unfold writeBack Arctic.writeBack
      simp only [Arith.exact, decide_eq_true_eq]
      rfl
    rw [h]
    rfl

theorem exact_phaseBody (sys : TrapSys K S) (cfg : ClockCfg K) (c j : ℕ) (mult : K) (step : ℕ) :
    phaseBody X sys cfg c j mult step = Arctic.phaseBody sys cfg c j mult step := by
  funext st ph
  unfold phaseBody Arctic.phaseBody
  simp only [exact_writeAll]
  simp only [Arith.exact, decide_eq_true_eq]
  rfl

theorem exact_clockLoops (sys : TrapSys K S) (cfg : ClockCfg K) (columns : List ℕ) (st : Image K × S) :
    clockLoops X sys cfg columns st = Arctic.clockLoops sys cfg columns st := by
  have h1 : ∀ c j (mult : K), stepBody X sys cfg c j mult = Arctic.stepBody sys cfg c j mult := by
    intro c j mult
    funext st step
    unfold stepBody Arctic.stepBody
    rw [exact_phaseBody]
  have h2 : ∀ c k, rowBody X sys cfg c k = Arctic.rowBody sys cfg c k := by
    intro c k
    funext st j
    unfold rowBody Arctic.rowBody
    rw [h1]
  have h3 : ∀ c, expressBody X sys cfg c = Arctic.expressBody sys cfg c := by
    intro c
    funext st k
    unfold expressBody Arctic.expressBody
    rw [h2]
    rfl
  have h4 : columnBody X sys cfg = Arctic.columnBody sys cfg := by
    funext st c
    unfold columnBody Arctic.columnBody
    rw [h3]
  unfold clockLoops Arctic.clockLoops
  rw [h4]

/-- The exact model's `clockCharge` is the generic function with exact arithmetic. -/
theorem exact_clockCharge (img : Image K) (ccd : CcdView K) (roe : Roe K) (groups : List (Arctic.Group K))
    (express offset : ℕ) (rows columns : List ℕ) (tw : Option (List ℕ)) {cfg : ClockCfg K} {roe' : Roe K}
    (h : clockCfg roe ccd express offset rows tw = .ok (cfg, roe')) :
    Arctic.clockCharge img ccd roe groups express offset rows columns tw =
      (clockCharge X img ccd groups cfg (nPadding roe.accessed) (maxNTransfers roe cfg) columns).map (·, roe') := by
  unfold Arctic.clockCharge clockCharge
  rw [h, exact_clockLoops, exact_atmSys]
  have e1 : pad X img (nPadding roe.accessed) = img.pad (nPadding roe.accessed) := rfl
  have e2 : newATM X groups ccd.fractions (maxNTransfers roe cfg) = ATM.new groups ccd.fractions (maxNTransfers roe cfg) := rfl
  rw [e1, e2]
  simp only [bind, Except.bind]
  cases Arctic.clockLoops (Arctic.atmSys ccd.fill) cfg columns
    (img.pad (nPadding roe.accessed), ATM.new groups ccd.fractions (maxNTransfers roe cfg)) with
  | error e => rfl
  | ok v => rfl

/-- The indices of positive entries with exact arithmetic. -/
theorem exact_positiveIndices (l : List K) : positiveIndices X l = Arctic.positiveIndices l := rfl

end Arctic.Fp
