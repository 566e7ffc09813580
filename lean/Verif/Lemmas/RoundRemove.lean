import Verif.Props.RoundImage
import Verif.Props.Invert

/-!
# The iteration of `remove_cti` in double precision
-/

set_option linter.unusedSectionVars false
set_option linter.unusedVariables false

namespace Arctic

/-! ### what a pixel can lose -/

theorem pass_drop {dw L : ℝ} {f : ℝ → ℝ} (hf : LipFill f L) (R : ℕ) (todo : List (ℕ × ℝ)) :
    ∀ (x : ℕ → ℝ) (ts : List Ref.Traps), Ref.Few dw L ts → (∀ p ∈ todo, p.1 < R ∧ p.2 = 1) → (todo.map Prod.fst).Nodup →
      (∀ r < R, 0 ≤ x r) →
      (∀ r < R, 0 ≤ (todo.foldl (Ref.row f dw) (x, ts)).1 r) ∧
      ∀ r < R, x r ≤ (todo.foldl (Ref.row f dw) (x, ts)).1 r + if r ∈ todo.map Prod.fst then Ref.totals ts else 0 := by
  induction todo with
  | nil => intro x ts _ _ _ hx; exact ⟨hx, fun r hr => by simp⟩
  | cons p todo ih =>
    intro x ts hts hp hnd hx
    obtain ⟨p1, p2⟩ := hp p List.mem_cons_self
    obtain ⟨a1, a2⟩ := hts.after hf (x p.1)
    rw [List.map_cons, List.nodup_cons] at hnd
    rw [List.foldl_cons, Ref.row_eq, if_neg (by rw [p2]; norm_num), p2, mul_one]
    have hT := Ref.totals_nonneg hts.reg
    have hg : -Ref.totals ts ≤ Ref.gain f dw ts (x p.1) := by
      rw [hts.gain_eq hf]
      have := Ref.filling_le_totals a1.reg
      rw [a2] at this
      linarith [hts.filling_nonneg]
    obtain ⟨i1, i2⟩ := ih (Function.update x p.1 (max 0 (x p.1 + Ref.gain f dw ts (x p.1)))) _ a1
      (fun q hq => hp q (List.mem_cons_of_mem _ hq)) hnd.2 (fun r hr => by
        by_cases h : r = p.1
        · subst h; rw [Function.update_self]; exact le_max_left _ _
        · rw [Function.update_of_ne h]; exact hx r hr)
    refine ⟨i1, fun r hr => ?_⟩
    have i3 := i2 r hr
    rw [a2] at i3
    by_cases h : r = p.1
    · subst h
      rw [Function.update_self, if_neg hnd.1, add_zero] at i3
      rw [if_pos (by simp)]
      have := le_max_right 0 (x p.1 + Ref.gain f dw ts (x p.1))
      linarith
    · rw [Function.update_of_ne h] at i3
      simp only [List.map_cons, List.mem_cons, h, false_or]
      exact i3

theorem readout_drop {dw L : ℝ} {f : ℝ → ℝ} (hf : LipFill f L) (R : ℕ) (ts : List Ref.Traps) (hts : Ref.Few dw L ts)
    (passes : List (List (ℕ × ℝ))) (hp : OnePasses R passes) (hnd : ∀ todo ∈ passes, (todo.map Prod.fst).Nodup)
    (x : ℕ → ℝ) (hx : ∀ r < R, 0 ≤ x r) :
    ∀ r < R, x r ≤ Ref.readout f dw ts passes x r + Ref.totals ts * passCount passes r := by
  induction passes generalizing x with
  | nil => intro r _; simp [Ref.readout, passCount]
  | cons todo passes ih =>
    intro r hr
    obtain ⟨a1, a2⟩ := pass_drop hf R todo x ts hts (hp todo List.mem_cons_self) (hnd todo List.mem_cons_self) hx
    have i := ih (fun t ht => hp t (List.mem_cons_of_mem _ ht)) (fun t ht => hnd t (List.mem_cons_of_mem _ ht)) _ a1 r hr
    unfold Ref.readout at *
    have e : Ref.pass f dw ts x todo = (todo.foldl (Ref.row f dw) (x, ts)).1 := rfl
    rw [List.foldl_cons, e]
    have := a2 r hr
    unfold passCount at *
    rw [List.countP_cons]
    by_cases hm : r ∈ todo.map Prod.fst
    · rw [if_pos hm] at this
      simp only [hm, decide_true, if_true]
      push_cast
      linarith
    · rw [if_neg hm] at this
      simp only [hm, decide_false]
      push_cast
      simp only [Bool.false_eq_true, if_false, add_zero]
      linarith

namespace Fp

open B64

variable {sum : List B64 → B64}

/-! ### the readout in exact arithmetic -/

theorem vacant_all {c : Scale} {dwell : B64} {dw : ℝ} {groups : List (Group B64)} {traps : List Ref.Traps}
    (h : List.Forall₂ (GroupNear c dwell dw) groups traps) : ∀ t ∈ traps, ∀ d, 0 < d → ∀ j, t.occ d j = 0 := by
  induction h with
  | nil => intro t ht; cases ht
  | @cons g t gs ts hg _ ih =>
    intro u hu
    rcases List.mem_cons.1 hu with rfl | hu
    · obtain ⟨p, keep, -, rfl, -⟩ := hg.kind
      intro d _ j
      rfl
    · exact ih u hu

set_option maxHeartbeats 1000000 in
/-- The readout without rounding, of columns of at least `low` electrons: little slope, little change. -/
theorem Precise.mild {c : Scale} {fill : B64 → B64} {F : ℝ → ℝ} {lo : ℝ} {dwell : B64} {dw : ℝ} {groups : List (Group B64)}
    {traps : List Ref.Traps} (h : Precise c fill F lo dwell dw groups traps) {n o : ℕ} {low high : ℝ}
    (hroom : Room c groups.length 1 lo (Ref.totals traps) (n + o) low high) :
    Mild n low ((1 - Ref.totals traps * c.L) ^ (n + o) * low) (lossSlope (2 * (Ref.totals traps * c.L)) (n + o))
      (Ref.readout F dw traps (Ref.allPasses n o)) ∧
    ∀ x : ℕ → ℝ, (∀ r < n, low ≤ x r) → ∀ r < n,
      Ref.readout F dw traps (Ref.allPasses n o) x r ≤ x r + Ref.totals traps * ((r + o + 1 : ℕ) : ℝ) ∧
      x r ≤ Ref.readout F dw traps (Ref.allPasses n o) x r + Ref.totals traps * ((r + o + 1 : ℕ) : ℝ) := by
  obtain ⟨f, hf, hFf⟩ := h.smooth
  have hreg := reg_all h.near
  have hΛ := mul_nonneg (Ref.totals_nonneg hreg) hf.lip.nonneg_slope
  have hts : Ref.Few dw c.L traps := ⟨hreg, hf.lip.nonneg_slope, by linarith [h.few]⟩
  have hone := allPasses_one n o
  have hgood := allPasses_good n o
  have hfl := hroom.floor h.whole
  have hpow : 0 ≤ (1 - Ref.totals traps * c.L) ^ (n + o) := pow_nonneg (by linarith [h.few]) _
  have same := fun (x : ℕ → ℝ) (hx : ∀ r < n, low ≤ x r) =>
    (readout_congr_fill hf.pos.le hf.lip hFf n (M := 1) zero_le_one traps hts (by linarith [h.few]) (Ref.allPasses n o) hgood x
      (fun r hr => hroom.low0.trans (hx r hr))
      (fun r hr => by
        rw [allPasses_length, one_mul]
        exact hfl.trans (mul_le_mul_of_nonneg_left (hx r hr) hpow))).1
  have key := readout_lip hf.lip n 1 zero_le_one _ hts (by rw [one_mul]; exact hts.few) h.few _ hgood
  rw [allPasses_length, lossSlope_eq h.few] at key
  have up : ∀ x : ℕ → ℝ, (∀ r < n, low ≤ x r) → ∀ r < n, 0 ≤ x r := fun x hx r hr => hroom.low0.trans (hx r hr)
  have zero := readout_zero hf.lip hts (vacant_all h.near) (Ref.allPasses n o)
  refine ⟨⟨(h.exact hroom).1, fun x hx => ?_, fun x y hx hy => ?_⟩, fun x hx r hr => ?_⟩
  · have := (key x (fun _ => 0) (up x hx) fun _ _ => le_rfl).2
    rw [zero] at this
    rw [same x hx]
    simpa only [sub_zero, colDist_zero (up x hx)] using this
  · rw [same x hx, same y hy]
    exact (key x y (up x hx) (up y hy)).2
  · have h1 := readout_rise hf.lip n _ hts _ hone hgood.nodup x (up x hx) r hr
    have h2 := readout_drop hf.lip n _ hts _ hone hgood.nodup x (up x hx) r hr
    rw [passCount_all n o r hr] at h1 h2
    rw [same x hx]
    exact ⟨h1, h2⟩

/-! ### the iteration -/

/-- The improved estimate in double precision. -/
def improve64 (sum : List B64 → B64) (img cur added : Image B64) : Image B64 :=
  { cur with px := fun r c => (B64.arith sum).add (cur.px r c) ((B64.arith sum).sub (img.px r c) (added.px r c)) }

theorem removeIter_succ64 {S : Type} (add : Image B64 → S → Except Err (Image B64 × S)) (img : Image B64) (n : ℕ) :
    ∀ st, Fp.removeIter (B64.arith sum) add img (n + 1) st = (Fp.removeIter (B64.arith sum) add img n st >>= fun x =>
      add x.1 x.2 >>= fun y => .ok (improve64 sum img x.1 y.1, y.2)) := by
  induction n with
  | zero =>
    rintro ⟨cur, s⟩
    simp only [Fp.removeIter]
    rfl
  | succ n ih =>
    rintro ⟨cur, s⟩
    change (add cur s >>= fun y => Fp.removeIter (B64.arith sum) add img (n + 1) (improve64 sum img cur y.1, y.2)) = _
    have : Fp.removeIter (B64.arith sum) add img (n + 1) (cur, s) = (add cur s >>= fun y =>
        Fp.removeIter (B64.arith sum) add img n (improve64 sum img cur y.1, y.2)) := rfl
    rw [this]
    cases add cur s with
    | error e => rfl
    | ok y => exact ih (improve64 sum img cur y.1, y.2)

/-- `x + (i - y)` in double precision. -/
theorem improve_near {B : ℚ} (hB : 1 ≤ B) (hBb : B ≤ big) {x i y : B64} {a b d : ℚ} (hx : Val x a) (hi : Val i b) (hy : Val y d)
    (ha : |a| ≤ 4 * B) (hb : |b| ≤ 4 * B) (hd : |d| ≤ 4 * B) :
    ∃ v, Val ((B64.arith sum).add x ((B64.arith sum).sub i y)) v ∧ |(v : ℝ) - (a + (b - d))| ≤ 2 * (B * Scale.u) := by
  have h1 := round_scale hB hBb (q := b - d) (by
    refine (abs_sub _ _).trans ?_
    linarith)
  have he : err ≤ 1 := by unfold err; norm_num
  have hBe : B * err ≤ B := mul_le_of_le_one_right (by linarith) he
  have h2 : |B64.round (b - d)| ≤ 9 * B := by
    have e : B64.round (b - d) = (B64.round (b - d) - (b - d)) + (b - d) := by ring
    rw [e]
    refine (abs_add_le _ _).trans ?_
    have := (abs_sub b d).trans (add_le_add hb hd)
    linarith [h1.1]
  have s1 : Val ((B64.arith sum).sub i y) (B64.round (b - d)) := val_sub hi hy h1.2
  have h3 := round_scale hB hBb (q := a + B64.round (b - d)) (by
    refine (abs_add_le _ _).trans ?_
    linarith)
  have s2 : Val ((B64.arith sum).add x ((B64.arith sum).sub i y)) (B64.round (a + B64.round (b - d))) := val_add hx s1 h3.2
  refine ⟨_, s2, ?_⟩
  have key : |B64.round (a + B64.round (b - d)) - (a + (b - d))| ≤ 2 * (B * err) := by
    have e : B64.round (a + B64.round (b - d)) - (a + (b - d)) =
        (B64.round (a + B64.round (b - d)) - (a + B64.round (b - d))) + (B64.round (b - d) - (b - d)) := by ring
    rw [e]
    refine (abs_add_le _ _).trans ?_
    linarith [h1.1, h3.1]
  have := ratCast_abs_le key
  unfold Scale.u
  push_cast at this ⊢
  exact this

/-- An image of doubles between two bounds. -/
def Within (nr nc : ℕ) (low high : ℝ) (img : Image B64) : Prop :=
  img.nr = nr ∧ img.nc = nc ∧ ∀ r < nr, ∀ c < nc, ∃ v : ℚ, Val (img.px r c) v ∧ low ≤ (v : ℝ) ∧ (v : ℝ) ≤ high

set_option maxHeartbeats 1000000 in
/-- The iteration in double precision follows the iteration in real numbers. -/
theorem removeIter_near64 {S : Type} {nr nc : ℕ} {low high q E : ℝ} {U : ℕ → ℕ → ℝ} {F : (ℕ → ℕ → ℝ) → ℕ → ℕ → ℝ}
    (h : MildMap nr nc low q U F) (hdrop : ∀ x, AtLeast nr nc low x → ∀ r < nr, ∀ c < nc, x r c ≤ F x r c + U r c)
    (hq : 0 ≤ q) (hU : ∀ r < nr, ∀ c < nc, 0 ≤ U r c) (hE : 0 ≤ E) {B : ℚ} (hB : 1 ≤ B) (hBb : B ≤ big) (hlow : 0 ≤ low)
    (hhigh : high ≤ 4 * B) (add : Image B64 → S → Except Err (Image B64 × S)) (s : S)
    (hadd : ∀ x, Within nr nc low high x → ∃ y, add x s = .ok (y, s) ∧ Within nr nc (-(4 * B)) (4 * B) y ∧
      gridDist nr nc (fun r c => rl (y.px r c)) (F fun r c => rl (x.px r c)) ≤ E)
    (img : Image B64) (h1 : img.nr = nr) (h2 : img.nc = nc)
    (himg : ∀ r < nr, ∀ c < nc, ∃ v : ℚ, Val (img.px r c) v ∧ low + (U r c + (E + 2 * (B * Scale.u))) ≤ (v : ℝ) ∧
      (v : ℝ) + (U r c + (E + 2 * (B * Scale.u))) ≤ high) (n : ℕ) :
    ∃ out, Fp.removeIter (B64.arith sum) add img n (img, s) = .ok (out, s) ∧ Within nr nc low high out ∧
      gridDist nr nc (fun r c => rl (out.px r c)) (removeSeq F (fun r c => rl (img.px r c)) n) ≤
        (∑ k ∈ Finset.range n, q ^ k) * (E + nr * nc * (2 * (B * Scale.u))) := by
  have hBR : (1 : ℝ) ≤ B := by exact_mod_cast hB
  have hρ : 0 ≤ 2 * (B * Scale.u) := by
    have := mul_nonneg (by linarith : (0 : ℝ) ≤ B) Scale.u_pos.le
    linarith
  have hlowi : ∀ r < nr, ∀ c < nc, low + U r c ≤ rl (img.px r c) := fun r hr c hc => by
    obtain ⟨v, hv, v1, -⟩ := himg r hr c hc
    rw [rl_val hv]
    linarith
  induction n with
  | zero =>
    refine ⟨img, rfl, ⟨h1, h2, fun r hr c hc => ?_⟩, ?_⟩
    · obtain ⟨v, hv, v1, v2⟩ := himg r hr c hc
      have := hU r hr c hc
      exact ⟨v, hv, by linarith, by linarith⟩
    · rw [Finset.range_zero, Finset.sum_empty, zero_mul]
      exact (gridDist_self_of fun _ _ _ _ => rfl).le
  | succ n ih =>
    obtain ⟨x, x1, x2, x3⟩ := ih
    obtain ⟨y, y1, y2, y3⟩ := hadd x x2
    have hxlow : AtLeast nr nc low fun r c => rl (x.px r c) := fun r hr c hc => by
      obtain ⟨v, hv, v1, -⟩ := x2.2.2 r hr c hc
      simp only [rl_val hv]
      exact v1
    have hwlow := removeSeq_low (F := F) (i := fun r c => rl (img.px r c)) h hU hlowi n
    have near : ∀ r < nr, ∀ c < nc, ∃ v : ℚ, Val ((improve64 sum img x y).px r c) v ∧
        |(v : ℝ) - (rl (x.px r c) + (rl (img.px r c) - rl (y.px r c)))| ≤ 2 * (B * Scale.u) := by
      intro r hr c hc
      obtain ⟨a, ha, a1, a2⟩ := x2.2.2 r hr c hc
      obtain ⟨b, hb, b1, b2⟩ := himg r hr c hc
      obtain ⟨d, hd, d1, d2⟩ := y2.2.2 r hr c hc
      have hu := hU r hr c hc
      rw [rl_val ha, rl_val hb, rl_val hd]
      refine improve_near (sum := sum) hB hBb ha hb hd ?_ ?_ ?_
      · have e : |(a : ℝ)| ≤ 4 * B := abs_le.2 ⟨by linarith, by linarith⟩
        exact_mod_cast e
      · have e : |(b : ℝ)| ≤ 4 * B := abs_le.2 ⟨by linarith, by linarith⟩
        exact_mod_cast e
      · have e : |(d : ℝ)| ≤ 4 * B := abs_le.2 ⟨by linarith, by linarith⟩
        exact_mod_cast e
    refine ⟨improve64 sum img x y, ?_, ⟨x2.1, x2.2.1, fun r hr c hc => ?_⟩, ?_⟩
    · rw [removeIter_succ64, x1]
      simp only [bind, Except.bind, y1]
    · obtain ⟨v, hv, hve⟩ := near r hr c hc
      obtain ⟨b, hb, b1, b2⟩ := himg r hr c hc
      have g1 := px_le_gridDist (x := fun r c => rl (y.px r c)) (y := F fun r c => rl (x.px r c)) hr hc
      have g2 := abs_le.1 (g1.trans y3)
      have g3 := abs_le.1 hve
      have g4 := h.rise _ hxlow r hr c hc
      have g5 := hdrop _ hxlow r hr c hc
      rw [rl_val hb] at g3
      exact ⟨v, hv, by linarith [g2.1, g2.2, g3.1, g3.2], by linarith [g2.1, g2.2, g3.1, g3.2]⟩
    · have step : gridDist nr nc (fun r c => rl ((improve64 sum img x y).px r c))
          (removeSeq F (fun r c => rl (img.px r c)) (n + 1)) ≤
          ∑ r ∈ Finset.range nr, ∑ c ∈ Finset.range nc, (2 * (B * Scale.u) +
            (|rl (y.px r c) - F (fun r c => rl (x.px r c)) r c| +
            |(F (fun r c => rl (x.px r c)) r c - rl (x.px r c)) -
              (F (removeSeq F (fun r c => rl (img.px r c)) n) r c - removeSeq F (fun r c => rl (img.px r c)) n r c)|)) := by
        refine gridDist_mono fun r hr c hc => ?_
        obtain ⟨v, hv, hve⟩ := near r hr c hc
        change |rl ((improve64 sum img x y).px r c) - _| ≤ _
        rw [rl_val hv]
        change |(v : ℝ) - (removeSeq F (fun r c => rl (img.px r c)) n r c +
          (rl (img.px r c) - F (removeSeq F (fun r c => rl (img.px r c)) n) r c))| ≤ _
        set w := removeSeq F (fun r c => rl (img.px r c)) n r c
        set Fw := F (removeSeq F (fun r c => rl (img.px r c)) n) r c
        set Fx := F (fun r c => rl (x.px r c)) r c
        have e : (v : ℝ) - (w + (rl (img.px r c) - Fw)) = (v - (rl (x.px r c) + (rl (img.px r c) - rl (y.px r c)))) +
            (-(rl (y.px r c) - Fx) + -((Fx - rl (x.px r c)) - (Fw - w))) := by ring
        rw [e]
        refine (abs_add_le _ _).trans (add_le_add hve ((abs_add_le _ _).trans ?_))
        rw [abs_neg, abs_neg]
      refine step.trans ?_
      simp only [Finset.sum_add_distrib]
      have t1 := h.lip _ _ hxlow hwlow
      have t2 := mul_le_mul_of_nonneg_left x3 hq
      have t3 : ∑ r ∈ Finset.range nr, ∑ c ∈ Finset.range nc, (2 * (B * Scale.u) : ℝ) = nr * nc * (2 * (B * Scale.u)) := by
        simp only [Finset.sum_const, Finset.card_range, nsmul_eq_mul]
        ring
      have t4 : ∑ r ∈ Finset.range nr, ∑ c ∈ Finset.range nc, |rl (y.px r c) - F (fun r c => rl (x.px r c)) r c| ≤ E := y3
      rw [t3]
      have t5 : (∑ k ∈ Finset.range (n + 1), q ^ k) * (E + nr * nc * (2 * (B * Scale.u))) =
          (E + nr * nc * (2 * (B * Scale.u))) +
            q * ((∑ k ∈ Finset.range n, q ^ k) * (E + nr * nc * (2 * (B * Scale.u)))) := by
        rw [Finset.sum_range_succ' (fun k => q ^ k) n]
        simp only [pow_succ, ← Finset.sum_mul]
        ring
      rw [t5]
      linarith

end Fp
end Arctic
