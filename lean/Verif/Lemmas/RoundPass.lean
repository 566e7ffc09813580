import Verif.Lemmas.RoundGroups

/-!
# Passes and columns in double precision
-/

set_option linter.unusedSectionVars false
set_option linter.unusedVariables false

namespace Arctic

theorem Ref.Twins.emptied {dw g : ℝ} {ts ts' : List Ref.Traps} (h : Ref.Twins dw ts ts' g) :
    ts'.map Ref.Traps.empty = ts.map Ref.Traps.empty := by
  induction h with
  | nil => rfl
  | cons t o h hs ih => rw [List.map_cons, List.map_cons, ih]; rfl

theorem Ref.after_empty (f : ℝ → ℝ) (dw : ℝ) (ts : List Ref.Traps) (n : ℝ) :
    (Ref.after f dw ts n).map Ref.Traps.empty = ts.map Ref.Traps.empty := by
  unfold Ref.after
  rw [List.map_map]
  exact List.map_congr_left fun t _ => transfer_empty t f dw _

theorem Ref.Few.gain_abs {dw L : ℝ} {f : ℝ → ℝ} (hf : LipFill f L) {ts : List Ref.Traps} (h : Ref.Few dw L ts) (n : ℝ) :
    |Ref.gain f dw ts n| ≤ Ref.totals ts := by
  induction ts with
  | nil => simp [Ref.gain, Ref.totals]
  | cons t ts ih =>
    obtain ⟨h1, h2, h3, h4⟩ := h.cons
    have e : Ref.gain f dw (t :: ts) n = (t.plain f dw n).1 + Ref.gain f dw ts n := by
      unfold Ref.gain
      rw [List.map_cons, h1.transfer_plain hf h2, List.sum_cons]
    rw [e, h4]
    exact (abs_add_le _ _).trans (add_le_add (h1.plain_abs hf n) (ih h3))

namespace Fp

open B64 MeasureTheory

variable {sum : List B64 → B64}

/-- A readout with a single phase. -/
structure OnePhase64 (cfg : ClockCfg B64) (dwell : B64) : Prop where
  seq : cfg.clockSeq = [[⟨true, 0, [(0, B64.one)]⟩]]
  dwell : cfg.dwell = [dwell]
  steps : cfg.steps = [0]
  phases : cfg.phases = [0]
  noSave : ∀ k j, cfg.saveMat.e k j = false
  between : cfg.emptyBetween = true

/-- `G` groups of traps, transfers that stand for up to `M` transfers. -/
structure Whole (c : Scale) (G : ℕ) (M : ℚ) : Prop where
  ok : c.Ok
  net : c.net ≤ c.N
  groups : (G : ℚ) * c.N ≤ c.P
  few : (G : ℚ) * err ≤ 1
  gain : c.gain G ≤ c.P
  one : 1 ≤ M
  big : M * c.P ≤ Fp.big

/-- of the number of electrons in a pixel after a transfer -/
noncomputable def Scale.row (c : Scale) (G : ℕ) (M : ℚ) : ℝ := M * c.gain G + 2 * (M * c.P * u)

theorem val_mul_one {x : B64} {q : ℚ} (h : Val x q) : Val ((B64.arith sum).mul x B64.one) q := by
  have := val_mul h val_one (by rw [mul_one, h.rep.1]; exact h.rep.2)
  rwa [mul_one, h.rep.1] at this

theorem totals_le {c : Scale} {dwell : B64} {dw : ℝ} {len i : ℕ} {ms : List (Mgr B64)} {ts : List Ref.Traps}
    (h : List.Forall₂ (MgrNear c dwell dw len i) ms ts) : (∀ t ∈ ts, t.Reg dw) ∧ Ref.totals ts ≤ ms.length * c.N := by
  induction h with
  | nil => simp [Ref.totals]
  | @cons m t ms ts hm hms ih =>
    obtain ⟨h1, h2⟩ := hm.reg
    refine ⟨fun x hx => ?_, ?_⟩
    · rcases List.mem_cons.1 hx with rfl | hx
      · exact h1
      · exact ih.1 x hx
    · have e : Ref.totals (t :: ts) = t.total + Ref.totals ts := by simp [Ref.totals]
      rw [e]
      push_cast [List.length_cons]
      linarith [ih.2]

set_option maxHeartbeats 1000000 in
theorem row_near [AnyOrder sum] {c : Scale} {M : ℚ} {dwell : B64} {dw : ℝ} {len i : ℕ} {ms : List (Mgr B64)}
    {ts : List Ref.Traps} (hW : Whole c ms.length M) {fill : ℕ → B64 → B64} {f : ℝ → ℝ} {lo : ℝ}
    (hf : FillSet c (fill 0) f lo) (hi : i < c.T) (hlen : i + 1 < len) {cfg : ClockCfg B64} (h1 : OnePhase64 cfg dwell)
    {img : Image B64} {col k j w : ℕ} (hw : cfg.rowWindow[j]? = some w) (hr : w < img.nr) (hc : col < img.nc)
    {a : ATM B64} (ha : a.data = [ms]) (hm : List.Forall₂ (MgrNear c dwell dw len i) ms ts) (hfew : Ref.Few dw c.L ts) {n : ℚ}
    (hn : Val (img.px w col) n) (hn0 : lo + c.rel + c.P * Scale.u ≤ (n : ℝ)) (hnP : n ≤ c.P) {mq : ℚ}
    (hmq : Val (cfg.expr.e k j) mq) (hm0 : 0 ≤ mq) (hmM : mq ≤ M) (hML : M * (Ref.totals ts * c.L) ≤ 1) :
    ∃ img' a' n' ms' ts' g, rowBody (B64.arith sum) (atmSys (B64.arith sum) fill) cfg col k (img, a) j = .ok (img', a') ∧
      img'.nr = img.nr ∧ img'.nc = img.nc ∧ (∀ r q, ¬(r = w ∧ q = col) → img'.px r q = img.px r q) ∧
      Val (img'.px w col) n' ∧ |(n' : ℝ) - (n + Ref.gain f dw ts n * mq)| ≤ c.row ms.length M ∧
      a'.data = [ms'] ∧ a'.saved = a.saved ∧ List.Forall₂ (MgrNear c dwell dw len (i + 1)) ms' ts' ∧
      ms'.length = ms.length ∧ g ≤ ms.length * c.gap ∧ Ref.Twins dw (Ref.after f dw ts n) ts' g := by
  have hok := hW.ok
  have hu := Scale.u_pos
  have he := err_pos
  have he8 : err ≤ 1 / 8 := by unfold err; norm_num
  have hN := hok.one_le
  have hP := hok.le_P
  have hM := hW.one
  have hPr : (1 : ℝ) ≤ c.P := hok.N0.trans hok.P0
  have hMr : (1 : ℝ) ≤ M := by exact_mod_cast hM
  obtain ⟨tot, q, ms', ts', g1, g2, g3, g4, g, g5, g6⟩ := groups_near (sum := sum) hok hf hW.net hi hlen (val_mul_one hn) hn0 hnP hm (B64.arith sum).zero 0 0
    val_zero (by simp) (by simpa using hW.groups) (by simpa using hW.few)
  have hgain := hfew.gain_abs hf.lip (n : ℝ)
  obtain ⟨-, htot⟩ := totals_le hm
  have hGP : (ms.length : ℝ) * c.N ≤ c.P := by exact_mod_cast hW.groups
  have hqb : |q| ≤ 2 * c.P := by
    have : |(q : ℝ)| ≤ 2 * c.P := by
      have := hW.gain
      push_cast at g3
      rw [zero_add] at g3
      rw [abs_le] at g3 hgain ⊢
      constructor <;> linarith
    exact_mod_cast this
  have hlm : ms'.length = ms.length := by
    have e1 := g4.length_eq
    have e2 := hm.length_eq
    have e3 : ts'.length = ts.length := by
      have := congrArg List.length (g6.emptied)
      simpa [Ref.after] using this
    omega
  have hread : read img ((w : ℤ) + 0) col = .ok (img.px w col) := by
    unfold read
    rw [if_pos ⟨by omega, by omega, hc⟩]
    simp
  have hreact : (atmSys (B64.arith sum) fill).react a 0 ((B64.arith sum).mul (img.px w col) B64.one) dwell =
      .ok (tot, { a with data := [ms'] }) := by
    change react (B64.arith sum) a 0 _ dwell (fill 0) = _
    unfold react
    rw [ha]
    simp only [List.getElem?_cons_zero]
    rw [g1]
    rfl
  have hrow0 : 0 ≤ c.row ms.length M := by
    have := (abs_nonneg _).trans g3
    unfold Scale.row
    have h1 : 0 ≤ (M : ℝ) * c.gain ms.length := mul_nonneg (by linarith) this
    have h2 : (0 : ℝ) ≤ M * c.P * Scale.u := mul_nonneg (mul_nonneg (by linarith) (by linarith)) hu.le
    linarith
  -- the phase
  have hphase : ∃ img' n', phaseBody (B64.arith sum) (atmSys (B64.arith sum) fill) cfg col j (cfg.expr.e k j) 0 (img, a) 0 =
      .ok (img', { a with data := [ms'] }) ∧ img'.nr = img.nr ∧ img'.nc = img.nc ∧
      (∀ r q, ¬(r = w ∧ q = col) → img'.px r q = img.px r q) ∧ Val (img'.px w col) n' ∧
      |(n' : ℝ) - (n + Ref.gain f dw ts n * mq)| ≤ c.row ms.length M := by
    unfold phaseBody
    rw [h1.seq, hw, h1.dwell]
    simp only [List.getElem?_cons_zero, Option.bind_some]
    rw [hread]
    simp only [bind, Except.bind, if_true]
    rw [show (B64.arith sum).mul (img.px w col) (B64.arith sum).one = (B64.arith sum).mul (img.px w col) B64.one from rfl, hreact]
    simp only
    by_cases h0 : mq = 0
    · refine ⟨img, n, ?_, rfl, rfl, fun _ _ _ => rfl, hn, ?_⟩
      · rw [show (B64.arith sum).eq (cfg.expr.e k j) (B64.arith sum).zero = true by
          change B64.eq _ B64.zero = true
          rw [val_eq hmq val_zero]; simpa using h0]
        simp
      · rw [h0]; simpa using hrow0
    · rw [show (B64.arith sum).eq (cfg.expr.e k j) (B64.arith sum).zero = false by
          change B64.eq _ B64.zero = false
          rw [val_eq hmq val_zero]; simpa using h0]
      simp only [Bool.false_eq_true, if_false]
      have v1 : Val ((B64.arith sum).mul tot B64.one) q := val_mul_one g2
      have hMP1 : 1 ≤ M * c.P := by nlinarith
      obtain ⟨r1, r2⟩ := round_scale (N := M * c.P) (q := q * mq) hMP1 hW.big (by
        rw [abs_mul, abs_of_nonneg hm0]
        have := mul_le_mul hqb hmM hm0 (by linarith : 0 ≤ 2 * c.P)
        have h0 : 0 ≤ M * c.P := by linarith
        nlinarith)
      have v2 : Val ((B64.arith sum).mul ((B64.arith sum).mul tot B64.one) (cfg.expr.e k j)) (B64.round (q * mq)) := val_mul v1 hmq r2
      have hb2 : |B64.round (q * mq)| ≤ 3 * (M * c.P) := by
        have k1 : |q * mq| ≤ 2 * (M * c.P) := by
          rw [abs_mul, abs_of_nonneg hm0]
          have := mul_le_mul hqb hmM hm0 (by linarith : 0 ≤ 2 * c.P)
          nlinarith
        have k2 : M * c.P * err ≤ M * c.P * (1 / 8) := mul_le_mul_of_nonneg_left he8 (by linarith)
        rw [abs_le] at r1 k1 ⊢
        constructor <;> linarith
      have hnq0 : (0 : ℝ) ≤ n := by
        have := hok.rel0
        have := hf.pos
        have : (0 : ℝ) ≤ c.P * Scale.u := mul_nonneg (by linarith) hu.le
        linarith
      have hn0' : 0 ≤ n := by exact_mod_cast hnq0
      obtain ⟨z1, z2⟩ := round_scale (N := M * c.P) (q := n + B64.round (q * mq)) hMP1 hW.big (by
        have : c.P ≤ M * c.P := by nlinarith
        rw [abs_le] at hb2 ⊢
        constructor <;> linarith)
      have v3 : Val ((B64.arith sum).add (img.px w col) ((B64.arith sum).mul ((B64.arith sum).mul tot B64.one) (cfg.expr.e k j))) (B64.round (n + B64.round (q * mq))) :=
        val_add hn v2 z2
      set z := B64.round (n + B64.round (q * mq)) with hz
      have hzn : |(z : ℝ) - (n + Ref.gain f dw ts n * mq)| ≤ c.row ms.length M := by
        have k1 := ratCast_abs_le r1
        have k2 := ratCast_abs_le z1
        push_cast at k1 k2
        change |_| ≤ (M : ℝ) * c.P * Scale.u at k1 k2
        have k3 : |((q : ℝ) - Ref.gain f dw ts n) * mq| ≤ M * c.gain ms.length := by
          push_cast at g3
          rw [zero_add] at g3
          have hmr0 : (0 : ℝ) ≤ mq := by exact_mod_cast hm0
          have hmr : (mq : ℝ) ≤ M := by exact_mod_cast hmM
          rw [abs_mul, abs_of_nonneg hmr0, mul_comm]
          exact mul_le_mul hmr g3 (abs_nonneg _) (by linarith)
        unfold Scale.row
        rw [abs_le] at k1 k2 k3 ⊢
        constructor <;> nlinarith
      have htar : 0 ≤ (n : ℝ) + Ref.gain f dw ts n * mq := by
        have hmr0 : (0 : ℝ) ≤ mq := by exact_mod_cast hm0
        have hmr : (mq : ℝ) ≤ M := by exact_mod_cast hmM
        have k1 := mul_le_mul_of_nonneg_right (hfew.gain_ge hf.lip hnq0) hmr0
        have hl : 0 ≤ Ref.totals ts * c.L := mul_nonneg (Ref.totals_nonneg hfew.reg) hfew.slope
        have k2 := mul_le_mul_of_nonneg_right ((mul_le_mul_of_nonneg_right hmr hl).trans hML) hnq0
        nlinarith
      have hwa : ∀ v, (if (B64.arith sum).lt ((B64.arith sum).add (img.px w col) ((B64.arith sum).mul ((B64.arith sum).mul tot B64.one) (cfg.expr.e k j))) (B64.arith sum).zero then (B64.arith sum).zero
            else (B64.arith sum).add (img.px w col) ((B64.arith sum).mul ((B64.arith sum).mul tot B64.one) (cfg.expr.e k j))) = v →
          writeAll (B64.arith sum) img (w : ℤ) col tot (cfg.expr.e k j) [(0, B64.one)] = .ok (Fp.set img w col v) := by
        intro v hv
        unfold writeAll writeBack
        rw [hread]
        simp only [bind, Except.bind, add_zero, Int.toNat_natCast]
        unfold writeAll
        rw [hv]
      have hlt : (B64.arith sum).lt ((B64.arith sum).add (img.px w col) ((B64.arith sum).mul ((B64.arith sum).mul tot B64.one) (cfg.expr.e k j))) (B64.arith sum).zero = decide (z < 0) :=
        val_lt v3 val_zero
      by_cases hz0 : z < 0
      · refine ⟨Fp.set img w col (B64.arith sum).zero, 0, ?_, rfl, rfl, ?_, ?_, ?_⟩
        · rw [hwa (B64.arith sum).zero (by rw [hlt]; simp [hz0])]
        · intro r q' hne
          simp only [Fp.set]
          rw [if_neg hne]
        · simp only [Fp.set, and_self, if_true]
          exact val_zero
        · have hzr : (z : ℝ) < 0 := by exact_mod_cast hz0
          rw [abs_le] at hzn ⊢
          push_cast
          constructor <;> linarith
      · refine ⟨Fp.set img w col ((B64.arith sum).add (img.px w col) ((B64.arith sum).mul ((B64.arith sum).mul tot B64.one) (cfg.expr.e k j))), z, ?_, rfl, rfl, ?_, ?_, hzn⟩
        · rw [hwa ((B64.arith sum).add (img.px w col) ((B64.arith sum).mul ((B64.arith sum).mul tot B64.one) (cfg.expr.e k j))) (by rw [hlt]; simp [hz0])]
        · intro r q' hne
          simp only [Fp.set]
          rw [if_neg hne]
        · simp only [Fp.set, and_self, if_true]
          exact v3
  obtain ⟨img', n', p1, p2, p3, p4, p5, p6⟩ := hphase
  refine ⟨img', { a with data := [ms'] }, n', ms', ts', g, ?_, p2, p3, p4, p5, p6, rfl, rfl, g4, hlm, g5, g6⟩
  unfold rowBody
  rw [h1.steps]
  simp only [foldlM_cons, foldlM_nil, stepBody, h1.phases]
  rw [p1]
  simp only [bind, Except.bind]
  rw [h1.noSave]
  rfl

/-- Column `col` of `img` holds the numbers `y`. -/
def Column (img : Image B64) (col R : ℕ) (y : ℕ → ℝ) : Prop := ∀ r < R, ∃ q : ℚ, Val (img.px r col) q ∧ (q : ℝ) = y r

/-- Row `j` of pass `k`. -/
def RowTodo (cfg : ClockCfg B64) (k j : ℕ) (p : ℕ × ℝ) : Prop :=
  cfg.rowWindow[j]? = some p.1 ∧ ∃ q : ℚ, Val (cfg.expr.e k j) q ∧ p.2 = q

set_option maxHeartbeats 1000000 in
theorem rows_near [AnyOrder sum] {c : Scale} {M : ℚ} {G : ℕ} (hW : Whole c G M) {fill : ℕ → B64 → B64} {f : ℝ → ℝ} {lo : ℝ}
    (hf : FillSet c (fill 0) f lo) {cfg : ClockCfg B64} {dwell : B64} (h1 : OnePhase64 cfg dwell) {dw : ℝ} {len R k col : ℕ}
    {l : List ℕ} {todo : List (ℕ × ℝ)} (hl : List.Forall₂ (RowTodo cfg k) l todo) :
    ∀ (img : Image B64) (a : ATM B64) (i : ℕ) (x y : ℕ → ℝ) (ms : List (Mgr B64)) (ts ts' : List Ref.Traps) (g : ℝ),
      ms.length = G → R ≤ img.nr → col < img.nc → i + l.length ≤ c.T → i + l.length < len → a.data = [ms] →
      List.Forall₂ (MgrNear c dwell dw len i) ms ts' → Ref.Few dw c.L ts → Ref.Twins dw ts ts' g →
      (todo.map Prod.fst).Nodup → (∀ p ∈ todo, p.1 < R ∧ 0 ≤ p.2 ∧ p.2 ≤ M) → M * (Ref.totals ts * c.L) ≤ 1 →
      2 * (Ref.totals ts * c.L) ≤ 1 → (∀ r < R, 0 ≤ x r) → Column img col R y →
      (∀ p ∈ todo, lo + c.rel + c.P * Scale.u ≤ y p.1 ∧ y p.1 ≤ c.P) →
      ∃ img' a' y' ms' ts'', l.foldlM (rowBody (B64.arith sum) (atmSys (B64.arith sum) fill) cfg col k) (img, a) = .ok (img', a') ∧
        img'.nr = img.nr ∧ img'.nc = img.nc ∧ (∀ r q, q ≠ col → img'.px r q = img.px r q) ∧
        Column img' col R y' ∧ a'.data = [ms'] ∧ a'.saved = a.saved ∧ ms'.length = G ∧
        List.Forall₂ (MgrNear c dwell dw len (i + l.length)) ms' ts'' ∧
        ts''.map Ref.Traps.empty = ts'.map Ref.Traps.empty ∧
        (∀ r, r ∉ todo.map Prod.fst → y' r = y r) ∧
        (∀ r ∈ todo.map Prod.fst, (1 - M * (Ref.totals ts * c.L)) * y r - c.row G M ≤ y' r ∧
          y' r ≤ y r + M * Ref.totals ts + c.row G M) ∧
        (1 - 2 * (Ref.totals ts * c.L)) * ∑ r ∈ Finset.range R, |((todo.foldl (Ref.row f dw) (x, ts)).1 r - x r) -
            (y' r - y r)| ≤
          M * (g + 2 * (Ref.totals ts * c.L) * (todo.map fun p => |x p.1 - y p.1|).sum) +
            l.length * (c.row G M + M * (G * c.gap)) := by
  have hMr : (1 : ℝ) ≤ M := by exact_mod_cast hW.one
  have hM0 : (0 : ℝ) ≤ M := by linarith
  induction hl with
  | nil =>
    intro img a i x y ms ts ts' g hG hR hcol hT hlen ha hms hts htw hnd hp hML hl1 hx hy hb
    refine ⟨img, a, y, ms, ts', rfl, rfl, rfl, fun _ _ _ => rfl, hy, ha, rfl, hG, hms, rfl, fun _ _ => rfl, by simp, ?_⟩
    simp only [List.foldl_nil, sub_self, abs_zero, Finset.sum_const_zero, List.map_nil, List.sum_nil, mul_zero, add_zero,
      List.length_nil, Nat.cast_zero, zero_mul]
    exact mul_nonneg hM0 (htw.nonneg hts.reg)
  | @cons j p l todo hj hl ih =>
    intro img a i x y ms ts ts' g hG hR hcol hT hlen ha hms hts htw hnd hp hML hl1 hx hy hb
    obtain ⟨hw, mq, hmq, hpm⟩ := hj
    obtain ⟨p1, p2, p3⟩ := hp p List.mem_cons_self
    obtain ⟨n, hn, hny⟩ := hy p.1 p1
    obtain ⟨b1, b2⟩ := hb p List.mem_cons_self
    obtain ⟨hfew', htot'⟩ := htw.few hts
    have hlam : 0 ≤ Ref.totals ts * c.L := mul_nonneg (Ref.totals_nonneg hts.reg) hts.slope
    have hm0 : 0 ≤ mq := by rw [hpm] at p2; exact_mod_cast p2
    have hmM : mq ≤ M := by rw [hpm] at p3; exact_mod_cast p3
    have hpmL : p.2 * (Ref.totals ts * c.L) ≤ 1 := (mul_le_mul_of_nonneg_right p3 hlam).trans hML
    rw [List.length_cons] at hT hlen
    subst hG
    obtain ⟨img1, a1, n', ms1, ts1, g', q1, q2, q3, q4, q5, q6, q7, q8, q9, q10, q11, q12⟩ := row_near (sum := sum) hW hf
      (by omega : i < c.T) (by omega : i + 1 < len) h1 hw (by omega) hcol ha hms hfew' hn (by rw [hny]; exact b1)
      (by have : (n : ℝ) ≤ c.P := by rw [hny]; exact b2
          exact_mod_cast this) hmq hm0 hmM (by rw [htot']; exact hML)
    rw [hny, ← hpm] at q6
    rw [hny] at q12
    obtain ⟨ex, hx0⟩ := row_plain hf.lip hts x p (hx _ p1) p2 hpmL
    obtain ⟨g1, tw1, hg1⟩ := htw.step hf.lip hts hl1 (x p.1) (y p.1)
    obtain ⟨a1', a2⟩ := hts.after hf.lip (x p.1)
    obtain ⟨g2, hg2, tw2⟩ := tw1.trans a1'.reg q12
    rw [List.map_cons, List.nodup_cons] at hnd
    set X := Function.update x p.1 (x p.1 + Ref.gain f dw ts (x p.1) * p.2) with hX
    set Y := Function.update y p.1 (n' : ℝ) with hY
    have hX0 : ∀ r < R, 0 ≤ X r := by
      intro r hr
      by_cases h : r = p.1
      · subst h; rw [hX, Function.update_self]; exact hx0
      · rw [hX, Function.update_of_ne h]; exact hx r hr
    have hYcol : Column img1 col R Y := by
      intro r hr
      by_cases h : r = p.1
      · subst h; exact ⟨n', q5, by rw [hY, Function.update_self]⟩
      · obtain ⟨q, z1, z2⟩ := hy r hr
        exact ⟨q, by rw [q4 r col (fun hh => h hh.1)]; exact z1, by rw [hY, Function.update_of_ne h]; exact z2⟩
    have hYb : ∀ q ∈ todo, lo + c.rel + c.P * Scale.u ≤ Y q.1 ∧ Y q.1 ≤ c.P := by
      intro q hq
      have : q.1 ≠ p.1 := fun h => hnd.1 (h ▸ List.mem_map_of_mem hq)
      rw [hY, Function.update_of_ne this]
      exact hb q (List.mem_cons_of_mem _ hq)
    obtain ⟨img', a', y', ms', ts'', r1, r2, r3, r4, r5, r6, r7, r8, r9, r10, r11, r12, r13⟩ := ih img1 a1 (i + 1) X Y ms1
      (Ref.after f dw ts (x p.1)) ts1 g2 q10 (by omega) (by omega) (by omega) (by omega) q7 q9 a1' tw2 hnd.2
      (fun q hq => hp q (List.mem_cons_of_mem _ hq)) (by rw [a2]; exact hML) (by rw [a2]; exact hl1) hX0 hYcol hYb
    refine ⟨img', a', y', ms', ts'', ?_, r2.trans q2, r3.trans q3, ?_, r5, r6, r7.trans q8, r8, ?_, ?_, ?_, ?_, ?_⟩
    · rw [foldlM_cons, q1]
      exact r1
    · intro r q hq
      rw [r4 r q hq, q4 r q (fun hh => hq hh.2)]
    · rw [List.length_cons, show i + (l.length + 1) = i + 1 + l.length by omega]
      exact r9
    · rw [r10, q12.emptied, Ref.after_empty]
    · intro r hr
      rw [List.map_cons, List.mem_cons, not_or] at hr
      rw [r11 r hr.2, hY, Function.update_of_ne hr.1]
    · intro r hr
      rw [a2] at r12
      rw [List.map_cons, List.mem_cons] at hr
      rcases hr with rfl | hr
      · have hy0 : 0 ≤ y p.1 := by
          have h2 := hW.ok.rel0
          have h3 := hf.pos
          have h4 : (0 : ℝ) ≤ c.P * Scale.u := mul_nonneg (by
            have := hW.ok.N0
            have := hW.ok.P0
            linarith) Scale.u_pos.le
          linarith
        rw [r11 _ hnd.1, hY, Function.update_self]
        have k1 := hfew'.gain_ge hf.lip hy0
        have k2 := hfew'.gain_abs hf.lip (y p.1)
        rw [htot'] at k1 k2
        have k3 := mul_le_mul_of_nonneg_right k1 p2
        have k4 := mul_le_mul_of_nonneg_right p3 (mul_nonneg hlam hy0)
        have k5 := mul_le_mul_of_nonneg_right ((abs_le.1 k2).2) p2
        have k6 := mul_le_mul_of_nonneg_left p3 (Ref.totals_nonneg hts.reg)
        rw [abs_le] at q6
        constructor <;> nlinarith
      · have : r ≠ p.1 := fun h => hnd.1 (h ▸ hr)
        have k := r12 r hr
        rw [hY, Function.update_of_ne this] at k
        exact k
    · rw [a2] at r13
      rw [List.foldl_cons, ex]
      have e1 : (todo.map fun q => |X q.1 - Y q.1|) = todo.map fun q => |x q.1 - y q.1| := by
        refine List.map_congr_left fun q hq => ?_
        have : q.1 ≠ p.1 := fun h => hnd.1 (h ▸ List.mem_map_of_mem hq)
        rw [hX, hY, Function.update_of_ne this, Function.update_of_ne this]
      rw [e1] at r13
      have e2 : ∑ r ∈ Finset.range R, |(X r - x r) - (Y r - y r)| =
          |Ref.gain f dw ts (x p.1) * p.2 - (n' - y p.1)| := by
        rw [Finset.sum_eq_single p.1]
        · rw [hX, hY, Function.update_self, Function.update_self, add_sub_cancel_left]
        · intro r _ h
          rw [hX, hY, Function.update_of_ne h, Function.update_of_ne h]; simp
        · intro h; exact absurd (Finset.mem_range.2 p1) h
      have e3 : ∀ A B : ℕ → ℝ, ∑ r ∈ Finset.range R, |(A r - x r) - (B r - y r)| ≤
          ∑ r ∈ Finset.range R, |(A r - X r) - (B r - Y r)| + ∑ r ∈ Finset.range R, |(X r - x r) - (Y r - y r)| := by
        intro A B
        rw [← Finset.sum_add_distrib]
        refine Finset.sum_le_sum fun r _ => ?_
        rw [show (A r - x r) - (B r - y r) = ((A r - X r) - (B r - Y r)) + ((X r - x r) - (Y r - y r)) by ring]
        exact abs_add_le _ _
      set lam := 2 * (Ref.totals ts * c.L) with hldef
      refine (mul_le_mul_of_nonneg_left (e3 _ _) (sub_nonneg.2 hl1)).trans ?_
      rw [e2, mul_add]
      set S := (todo.map fun q => |x q.1 - y q.1|).sum with hS
      rw [List.map_cons, List.sum_cons]
      set E := |Ref.gain f dw ts (x p.1) - Ref.gain f dw ts' (y p.1)| with hE
      have hE0 : 0 ≤ (1 - lam) * E := mul_nonneg (sub_nonneg.2 hl1) (abs_nonneg _)
      have hr0 : 0 ≤ c.row ms.length M := (abs_nonneg _).trans q6
      have d1 : |Ref.gain f dw ts (x p.1) * p.2 - (n' - y p.1)| ≤ E * p.2 + c.row ms.length M := by
        have : Ref.gain f dw ts (x p.1) * p.2 - ((n' : ℝ) - y p.1) =
            (Ref.gain f dw ts (x p.1) - Ref.gain f dw ts' (y p.1)) * p.2 -
              ((n' : ℝ) - (y p.1 + Ref.gain f dw ts' (y p.1) * p.2)) := by ring
        rw [this]
        refine (abs_sub _ _).trans (add_le_add ?_ q6)
        rw [abs_mul, abs_of_nonneg p2]
      have d2 := mul_le_mul_of_nonneg_left d1 (sub_nonneg.2 hl1)
      have c1 : (1 - lam) * (E * p.2) ≤ M * ((1 - lam) * E) := by
        have := mul_le_mul_of_nonneg_left p3 hE0
        nlinarith
      have hlam0 : 0 ≤ lam := by linarith
      have c3 : (1 - lam) * c.row ms.length M ≤ c.row ms.length M := by
        have := mul_nonneg hlam0 hr0
        linarith
      have c2 := mul_le_mul_of_nonneg_left (hg2.trans (add_le_add_right q11 g1)) hM0
      have c4 := mul_le_mul_of_nonneg_left hg1 hM0
      push_cast [List.length_cons]
      nlinarith

end Fp
end Arctic
