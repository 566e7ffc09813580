import Verif.Lemmas.RoundRemove
import Verif.Props.RoundSize

/-!
# C94 — `remove_cti` in double precision

Errors of `add_cti` in double precision do not pile up in the iteration of `remove_cti`: it stays close to the iteration in
real numbers, and ends close to the image without CTI.
-/

set_option linter.unusedSectionVars false
set_option linter.unusedVariables false

namespace Arctic
namespace Fp

open B64

variable {sum : List B64 → B64}

/-- The change made by both directions of clocking together has this slope. -/
noncomputable def bothSlope (lp : ℝ) (np : ℕ) (ls : ℝ) (ns : ℕ) : ℝ := (1 / (1 - lp)) ^ np * (1 / (1 - ls)) ^ ns - 1

theorem bothSlope_eq (lp : ℝ) (np : ℕ) (ls : ℝ) (ns : ℕ) :
    (1 + lossSlope lp np) * (1 + lossSlope ls ns) - 1 = bothSlope lp np ls ns := by
  unfold lossSlope bothSlope
  ring

/-- Both directions in real numbers. -/
noncomputable def bothMap (Lp Ls : ℝ → ℝ) (dp ds : ℝ) (tp ts : List Ref.Traps) (nr nc o os : ℕ) (x : ℕ → ℕ → ℝ) (r c : ℕ) : ℝ :=
  Ref.readout Ls ds ts (Ref.allPasses nc os) (fun c => Ref.readout Lp dp tp (Ref.allPasses nr o) (fun r => x r c) r) c

/-- What two directions of clocking can add to a pixel. -/
noncomputable def bothRise (Λp Λs : ℝ) (o os r c : ℕ) : ℝ := Λp * ((r + o + 1 : ℕ) : ℝ) + Λs * ((c + os + 1 : ℕ) : ℝ)

section both
variable {cp cs : Scale} {gp gs : ℕ → B64 → B64} {Lp Ls : ℕ → ℝ → ℝ} {lp ls : ℝ} {wp ws : B64} {dp ds : ℝ}
    {Gp Gs : List (Group B64)} {tp ts : List Ref.Traps}

theorem both_mild64 (hp : Precise cp (gp 0) (Lp 0) lp wp dp Gp tp) (hs : Precise cs (gs 0) (Ls 0) ls ws ds Gs ts) {nr nc o os : ℕ}
    {low high low' high' : ℝ} (hlow' : low' = (1 - Ref.totals tp * cp.L) ^ (nr + o) * low - (nr + o : ℕ) * cp.row Gp.length 1)
    (hroomp : Room cp Gp.length 1 lp (Ref.totals tp) (nr + o) low high)
    (hrooms : Room cs Gs.length 1 ls (Ref.totals ts) (nc + os) low' high') {q : ℝ}
    (hq : q = bothSlope (2 * (Ref.totals tp * cp.L)) (nr + o) (2 * (Ref.totals ts * cs.L)) (nc + os)) :
    0 ≤ q ∧ MildMap nr nc low q (bothRise (Ref.totals tp) (Ref.totals ts) o os)
      (bothMap (Lp 0) (Ls 0) dp ds tp ts nr nc o os) ∧
    ∀ x, AtLeast nr nc low x → ∀ r < nr, ∀ c < nc,
      x r c ≤ bothMap (Lp 0) (Ls 0) dp ds tp ts nr nc o os x r c + bothRise (Ref.totals tp) (Ref.totals ts) o os r c := by
  obtain ⟨mp, bp⟩ := hp.mild hroomp
  obtain ⟨ms, bs⟩ := hs.mild hrooms
  have hrow := mul_nonneg (Nat.cast_nonneg (α := ℝ) (nr + o)) (hp.whole.row0 hp.whole.ok.net0)
  have mp' : Mild nr low low' (lossSlope (2 * (Ref.totals tp * cp.L)) (nr + o))
      (Ref.readout (Lp 0) dp tp (Ref.allPasses nr o)) := by
    refine ⟨fun x hx r hr => ?_, mp.small, mp.lip⟩
    have := mp.floor x hx r hr
    rw [hlow']
    linarith
  have hΛp := mul_nonneg (Ref.totals_nonneg (reg_all hp.near)) hp.whole.ok.L0
  have hΛs := mul_nonneg (Ref.totals_nonneg (reg_all hs.near)) hs.whole.ok.L0
  have hqp := lossSlope_nonneg (l := 2 * (Ref.totals tp * cp.L)) (by linarith) hp.few (nr + o)
  have hqs := lossSlope_nonneg (l := 2 * (Ref.totals ts * cs.L)) (by linarith) hs.few (nc + os)
  rw [hq, ← bothSlope_eq]
  refine ⟨by nlinarith, mildMap_both mp' ms hqs (fun x hx r hr => (bp x hx r hr).1) (fun x hx r hr => (bs x hx r hr).1),
    fun x hx r hr c hc => ?_⟩
  have h1 := (bp (fun r => x r c) (fun r hr => hx r hr c hc) r hr).2
  have h2 := (bs (fun c => Ref.readout (Lp 0) dp tp (Ref.allPasses nr o) (fun r => x r c) r)
    (fun c hc => mp'.floor (fun r => x r c) (fun r hr => hx r hr c hc) r hr) c hc).2
  unfold bothMap bothRise
  linarith

theorem both_run64 (hp : Precise cp (gp 0) (Lp 0) lp wp dp Gp tp) (hs : Precise cs (gs 0) (Ls 0) ls ws ds Gs ts)
    (ip is : Bool) (o op os : ℕ) {nr nc : ℕ} (hnr : 0 < nr) (hnc : 0 < nc) (x : Image ℝ) (h1 : x.nr = nr) (h2 : x.nc = nc) :
    ∃ y, Arctic.addCti x (some (exactDirection Lp dp tp ip op)) o .all (some (exactDirection Ls ds ts is os)) .all none =
        .ok (y, some (exactDirection Lp dp tp ip op), some (exactDirection Ls ds ts is os)) ∧ y.nr = nr ∧ y.nc = nc ∧
      SameGrid nr nc y.px (bothMap (Lp 0) (Ls 0) dp ds tp ts nr nc o os x.px) := by
  subst h1 h2
  obtain ⟨y, a1, a2, a3, a4⟩ := C53_add_cti x hnr hnc Lp Ls dp ds tp ts
    ⟨hp.dw_pos, hp.model, hp.pos, hp.ok⟩ ⟨hs.dw_pos, hs.model, hs.pos, hs.ok⟩ ip is o op os
  rw [(managers_near (sum := B64.sumLeft) hp.near 0).2, (managers_near (sum := B64.sumLeft) hs.near 0).2] at a4
  exact ⟨y, a1, a2, a3, a4⟩

set_option maxHeartbeats 1000000 in
theorem remove_both64 [AnyOrder sum] (hp : Precise cp (gp 0) (Lp 0) lp wp dp Gp tp)
    (hs : Precise cs (gs 0) (Ls 0) ls ws ds Gs ts) (img : Image B64) (hnr : 0 < img.nr) (hnc : 0 < img.nc) (ip is : Bool)
    (o op os : ℕ) (hTp : img.nr ≤ cp.T) (hTs : img.nc ≤ cs.T) (hbp : img.nr + o ≤ 2 ^ 25) (hbs : img.nc + os ≤ 2 ^ 25)
    {low high low' high' : ℝ} (hlow' : low' = (1 - Ref.totals tp * cp.L) ^ (img.nr + o) * low -
      (img.nr + o : ℕ) * cp.row Gp.length 1)
    (hhigh' : high' = high + (img.nr + o : ℕ) * (Ref.totals tp + cp.row Gp.length 1))
    (hroomp : Room cp Gp.length 1 lp (Ref.totals tp) (img.nr + o) low high)
    (hrooms : Room cs Gs.length 1 ls (Ref.totals ts) (img.nc + os) low' high') {E q : ℝ}
    (hE : E = img.nc * cp.readout Gp.length img.nr o (Ref.totals tp) + img.nr * cs.readout Gs.length img.nc os (Ref.totals ts))
    (hq : q = bothSlope (2 * (Ref.totals tp * cp.L)) (img.nr + o) (2 * (Ref.totals ts * cs.L)) (img.nc + os))
    (himg : ∀ r < img.nr, ∀ c < img.nc, ∃ v : ℚ, Val (img.px r c) v ∧
      low + (bothRise (Ref.totals tp) (Ref.totals ts) o os r c + (E + 2 * (cs.P * Scale.u))) ≤ (v : ℝ) ∧
      (v : ℝ) + (bothRise (Ref.totals tp) (Ref.totals ts) o os r c + (E + 2 * (cs.P * Scale.u))) ≤ high) (n : ℕ) :
    0 ≤ E ∧ (∀ r < img.nr, ∀ c < img.nc, 0 ≤ bothRise (Ref.totals tp) (Ref.totals ts) o os r c) ∧
    (∀ r < img.nr, ∀ c < img.nc, low + bothRise (Ref.totals tp) (Ref.totals ts) o os r c ≤ rl (img.px r c)) ∧
    ∃ out, Fp.removeCti (B64.arith sum) B64.conv img n (some (direction64 gp wp Gp ip op)) o .all
        (some (direction64 gs ws Gs is os)) .all none =
          .ok (out, some (direction64 gp wp Gp ip op), some (direction64 gs ws Gs is os)) ∧
      Within img.nr img.nc low high out ∧
      gridDist img.nr img.nc (fun r c => rl (out.px r c))
        (removeSeq (bothMap (Lp 0) (Ls 0) dp ds tp ts img.nr img.nc o os) (fun r c => rl (img.px r c)) n) ≤
        (∑ k ∈ Finset.range n, q ^ k) * (E + img.nr * img.nc * (2 * (cs.P * Scale.u))) := by
  obtain ⟨hq0, hmild, hdrop⟩ := both_mild64 hp hs (nr := img.nr) (nc := img.nc) (os := os) hlow' hroomp hrooms hq
  have hΛp := Ref.totals_nonneg (reg_all hp.near)
  have hΛs := Ref.totals_nonneg (reg_all hs.near)
  have hU : ∀ r < img.nr, ∀ c < img.nc, 0 ≤ bothRise (Ref.totals tp) (Ref.totals ts) o os r c := fun r _ c _ =>
    add_nonneg (mul_nonneg hΛp (Nat.cast_nonneg _)) (mul_nonneg hΛs (Nat.cast_nonneg _))
  have hrow := hp.whole.row0 hp.whole.ok.net0
  have hrows := hs.whole.row0 hs.whole.ok.net0
  have hP1 : (1 : ℚ) ≤ cs.P := hs.whole.ok.one_le.trans hs.whole.ok.le_P
  have hPb : cs.P ≤ big := hs.whole.ok.le_big
  have hPR : (1 : ℝ) ≤ cs.P := by exact_mod_cast hP1
  have hPu : (0 : ℝ) ≤ 2 * (cs.P * Scale.u) := by
    have := mul_nonneg (by linarith : (0 : ℝ) ≤ cs.P) Scale.u_pos.le
    linarith
  have hhigh : high ≤ 4 * cs.P := by
    have h1 := hrooms.high
    have h2 : 0 ≤ ((img.nr + o : ℕ) : ℝ) * (Ref.totals tp + cp.row Gp.length 1) :=
      mul_nonneg (Nat.cast_nonneg _) (by linarith)
    have h3 : 0 ≤ ((img.nc + os : ℕ) : ℝ) * (Ref.totals ts + cs.row Gs.length 1) :=
      mul_nonneg (Nat.cast_nonneg _) (by linarith)
    rw [Rat.cast_one, one_mul, hhigh'] at h1
    linarith
  have hadd : ∀ x, Within img.nr img.nc low high x →
      ∃ y, Fp.addCti (B64.arith sum) B64.conv x (some (direction64 gp wp Gp ip op)) o .all
        (some (direction64 gs ws Gs is os)) .all none =
          .ok (y, some (direction64 gp wp Gp ip op), some (direction64 gs ws Gs is os)) ∧
        Within img.nr img.nc (-(4 * cs.P)) (4 * cs.P) y ∧
        gridDist img.nr img.nc (fun r c => rl (y.px r c))
          (bothMap (Lp 0) (Ls 0) dp ds tp ts img.nr img.nc o os fun r c => rl (x.px r c)) ≤ E := by
    rintro x ⟨x1, x2, x3⟩
    obtain ⟨y, y', a1, a2, a3, a4, a5, a6⟩ := C93_add_cti (sum := sum) (gp := gp) (gs := gs) hp hs x (by rw [x1]; exact hnr)
      (by rw [x2]; exact hnc) ip is o op os (by rw [x1]; exact hTp) (by rw [x2]; exact hTs) (by rw [x1]; exact hbp)
      (by rw [x2]; exact hbs) (low := low) (high := high) (low' := low') (high' := high') (by rw [x1]; exact hlow') (by rw [x1]; exact hhigh')
      (by rw [x1]; exact hroomp) (by rw [x2]; exact hrooms) (by rw [x1, x2]; exact x3)
    obtain ⟨y'', b1, b2, b3, b4⟩ := both_run64 hp hs ip is o op os hnr hnc (realImage x) x1 x2
    rw [a2] at b1
    injection b1 with b1
    injection b1 with b1 _
    subst b1
    rw [x1, x2] at a5 a6
    refine ⟨y, a1, ⟨a3.trans x1, a4.trans x2, fun r hr c hc => ?_⟩, ?_⟩
    · obtain ⟨v, hv, v1, v2⟩ := a5 r hr c hc
      have v1' : (0 : ℝ) ≤ v := by exact_mod_cast v1
      have v2' : (v : ℝ) ≤ cs.P := by exact_mod_cast v2
      exact ⟨v, hv, by linarith, by linarith⟩
    · rw [hE]
      refine le_trans (le_of_eq ?_) a6
      exact gridDist_congr (fun _ _ _ _ => rfl) fun r hr c hc => (b4 r hr c hc).symm
  have hE0 : 0 ≤ E := by
    rw [hE]
    have hr : ∀ {c : Scale} {fill : B64 → B64} {F : ℝ → ℝ} {lo : ℝ} {dwell : B64} {dw : ℝ} {groups : List (Group B64)}
        {traps : List Ref.Traps}, Precise c fill F lo dwell dw groups traps → ∀ n o,
          0 ≤ c.readout groups.length n o (Ref.totals traps) := by
      intro c fill F lo dwell dw groups traps h n o
      have h1 := h.whole.row0 h.whole.ok.net0
      have h2 := h.whole.ok.gap0
      have h3 := h.few
      unfold Scale.readout Scale.pass
      refine mul_nonneg (Nat.cast_nonneg _) (div_nonneg (mul_nonneg (Nat.cast_nonneg _) ?_) (by linarith))
      rw [Rat.cast_one, one_mul]
      exact add_nonneg h1 (mul_nonneg (Nat.cast_nonneg _) h2)
    exact add_nonneg (mul_nonneg (Nat.cast_nonneg _) (hr hp _ _)) (mul_nonneg (Nat.cast_nonneg _) (hr hs _ _))
  refine ⟨hE0, hU, fun r hr c hc => ?_, ?_⟩
  · obtain ⟨v, hv, v1, -⟩ := himg r hr c hc
    rw [rl_val hv]
    linarith
  · obtain ⟨out, o1, o2, o3⟩ := removeIter_near64 (sum := sum) hmild hdrop hq0 hU hE0 hP1 hPb hroomp.low0 hhigh
      (fun cur s => Fp.addCti (B64.arith sum) B64.conv cur s.1 o .all s.2 .all none)
      (some (direction64 gp wp Gp ip op), some (direction64 gs ws Gs is os)) hadd img rfl rfl himg n
    exact ⟨out, o1, o2, o3⟩

end both
end Fp

open Fp B64 in
/-- **C94**: `remove_cti` in double precision against `remove_cti` in real numbers. -/
theorem C94_remove_cti {sum : List B64 → B64} [AnyOrder sum] {cp cs : Scale} {gp gs : ℕ → B64 → B64} {Lp Ls : ℕ → ℝ → ℝ}
    {lp ls : ℝ} {wp ws : B64} {dp ds : ℝ} {Gp Gs : List (Group B64)} {tp ts : List Ref.Traps}
    (hp : Precise cp (gp 0) (Lp 0) lp wp dp Gp tp) (hs : Precise cs (gs 0) (Ls 0) ls ws ds Gs ts) (img : Image B64)
    (hnr : 0 < img.nr) (hnc : 0 < img.nc) (ip is : Bool)
    (o op os : ℕ) (hTp : img.nr ≤ cp.T) (hTs : img.nc ≤ cs.T) (hbp : img.nr + o ≤ 2 ^ 25) (hbs : img.nc + os ≤ 2 ^ 25)
    {low high low' high' : ℝ} (hlow' : low' = (1 - Ref.totals tp * cp.L) ^ (img.nr + o) * low -
      (img.nr + o : ℕ) * cp.row Gp.length 1)
    (hhigh' : high' = high + (img.nr + o : ℕ) * (Ref.totals tp + cp.row Gp.length 1))
    (hroomp : Room cp Gp.length 1 lp (Ref.totals tp) (img.nr + o) low high)
    (hrooms : Room cs Gs.length 1 ls (Ref.totals ts) (img.nc + os) low' high') {E q : ℝ}
    (hE : E = img.nc * cp.readout Gp.length img.nr o (Ref.totals tp) + img.nr * cs.readout Gs.length img.nc os (Ref.totals ts))
    (hq : q = bothSlope (2 * (Ref.totals tp * cp.L)) (img.nr + o) (2 * (Ref.totals ts * cs.L)) (img.nc + os))
    (himg : ∀ r < img.nr, ∀ c < img.nc, ∃ v : ℚ, Val (img.px r c) v ∧
      low + (bothRise (Ref.totals tp) (Ref.totals ts) o os r c + (E + 2 * (cs.P * Scale.u))) ≤ (v : ℝ) ∧
      (v : ℝ) + (bothRise (Ref.totals tp) (Ref.totals ts) o os r c + (E + 2 * (cs.P * Scale.u))) ≤ high) (n : ℕ) :
    ∃ out out', Fp.removeCti (B64.arith sum) B64.conv img n (some (direction64 gp wp Gp ip op)) o .all
        (some (direction64 gs ws Gs is os)) .all none =
          .ok (out, some (direction64 gp wp Gp ip op), some (direction64 gs ws Gs is os)) ∧
      Arctic.removeCti (realImage img) n (some (exactDirection Lp dp tp ip op)) o .all
        (some (exactDirection Ls ds ts is os)) .all none =
          .ok (out', some (exactDirection Lp dp tp ip op), some (exactDirection Ls ds ts is os)) ∧
      out.nr = img.nr ∧ out.nc = img.nc ∧ out'.nr = img.nr ∧ out'.nc = img.nc ∧
      (∀ r < img.nr, ∀ c < img.nc, ∃ v : ℚ, Val (out.px r c) v ∧ low ≤ (v : ℝ) ∧ (v : ℝ) ≤ high) ∧
      ∑ r ∈ Finset.range img.nr, ∑ c ∈ Finset.range img.nc, |Fp.rl (out.px r c) - out'.px r c| ≤
        (∑ k ∈ Finset.range n, q ^ k) * (E + img.nr * img.nc * (2 * (cs.P * Scale.u))) := by
  obtain ⟨hE0, hU, hlow, out, o1, o2, o3⟩ := remove_both64 (sum := sum) hp hs img hnr hnc ip is o op os hTp hTs hbp hbs hlow'
    hhigh' hroomp hrooms hE hq himg n
  obtain ⟨hq0, hmild, -⟩ := both_mild64 hp hs (nr := img.nr) (nc := img.nc) (os := os) hlow' hroomp hrooms hq
  obtain ⟨out', e1, e2, e3⟩ := removeIter_seq
    (fun (cur : Image ℝ) s => Arctic.addCti cur s.1 o .all s.2 .all none)
    (some (exactDirection Lp dp tp ip op), some (exactDirection Ls ds ts is os)) (realImage img) hmild hU hlow
    (fun x hx => by
      obtain ⟨y, y1, y2, y3, y4⟩ := both_run64 hp hs ip is o op os hnr hnc x hx.1 hx.2
      exact ⟨y, y1, ⟨y2, y3⟩, y4⟩) n
  refine ⟨out, out', o1, e1, o2.1, o2.2.1, e2.1, e2.2, o2.2.2, ?_⟩
  refine le_trans (le_of_eq ?_) o3
  exact gridDist_congr (fun _ _ _ _ => rfl) e3

open Fp B64 in
/-- **C94**, the truth: there is an image for which `add_cti` in real numbers gives the image that was to be corrected, and
`remove_cti` in double precision approaches it up to the errors of a few evaluations of `add_cti`, however often it iterates. -/
theorem C94_truth {sum : List B64 → B64} [AnyOrder sum] {cp cs : Scale} {gp gs : ℕ → B64 → B64} {Lp Ls : ℕ → ℝ → ℝ}
    {lp ls : ℝ} {wp ws : B64} {dp ds : ℝ} {Gp Gs : List (Group B64)} {tp ts : List Ref.Traps}
    (hp : Precise cp (gp 0) (Lp 0) lp wp dp Gp tp) (hs : Precise cs (gs 0) (Ls 0) ls ws ds Gs ts) (img : Image B64)
    (hnr : 0 < img.nr) (hnc : 0 < img.nc) (ip is : Bool)
    (o op os : ℕ) (hTp : img.nr ≤ cp.T) (hTs : img.nc ≤ cs.T) (hbp : img.nr + o ≤ 2 ^ 25) (hbs : img.nc + os ≤ 2 ^ 25)
    {low high low' high' : ℝ} (hlow' : low' = (1 - Ref.totals tp * cp.L) ^ (img.nr + o) * low -
      (img.nr + o : ℕ) * cp.row Gp.length 1)
    (hhigh' : high' = high + (img.nr + o : ℕ) * (Ref.totals tp + cp.row Gp.length 1))
    (hroomp : Room cp Gp.length 1 lp (Ref.totals tp) (img.nr + o) low high)
    (hrooms : Room cs Gs.length 1 ls (Ref.totals ts) (img.nc + os) low' high') {E q : ℝ}
    (hE : E = img.nc * cp.readout Gp.length img.nr o (Ref.totals tp) + img.nr * cs.readout Gs.length img.nc os (Ref.totals ts))
    (hq : q = bothSlope (2 * (Ref.totals tp * cp.L)) (img.nr + o) (2 * (Ref.totals ts * cs.L)) (img.nc + os)) (hq1 : q < 1)
    (himg : ∀ r < img.nr, ∀ c < img.nc, ∃ v : ℚ, Val (img.px r c) v ∧
      low + (bothRise (Ref.totals tp) (Ref.totals ts) o os r c + (E + 2 * (cs.P * Scale.u))) ≤ (v : ℝ) ∧
      (v : ℝ) + (bothRise (Ref.totals tp) (Ref.totals ts) o os r c + (E + 2 * (cs.P * Scale.u))) ≤ high) :
    ∃ truth back : Image ℝ, truth.nr = img.nr ∧ truth.nc = img.nc ∧ back.nr = img.nr ∧ back.nc = img.nc ∧
      (∀ r < img.nr, ∀ c < img.nc, low ≤ truth.px r c) ∧
      Arctic.addCti truth (some (exactDirection Lp dp tp ip op)) o .all (some (exactDirection Ls ds ts is os)) .all none =
        .ok (back, some (exactDirection Lp dp tp ip op), some (exactDirection Ls ds ts is os)) ∧
      (∀ r < img.nr, ∀ c < img.nc, back.px r c = Fp.rl (img.px r c)) ∧
      ∀ n, ∃ out, Fp.removeCti (B64.arith sum) B64.conv img n (some (direction64 gp wp Gp ip op)) o .all
          (some (direction64 gs ws Gs is os)) .all none =
            .ok (out, some (direction64 gp wp Gp ip op), some (direction64 gs ws Gs is os)) ∧
        out.nr = img.nr ∧ out.nc = img.nc ∧
        (∀ r < img.nr, ∀ c < img.nc, ∃ v : ℚ, Val (out.px r c) v ∧ low ≤ (v : ℝ) ∧ (v : ℝ) ≤ high) ∧
        ∑ r ∈ Finset.range img.nr, ∑ c ∈ Finset.range img.nc, |Fp.rl (out.px r c) - truth.px r c| ≤
          q ^ (n + 1) / (1 - q) * (∑ r ∈ Finset.range img.nr, ∑ c ∈ Finset.range img.nc, Fp.rl (img.px r c)) +
            (E + img.nr * img.nc * (2 * (cs.P * Scale.u))) / (1 - q) := by
  obtain ⟨hE0, hU, hlow, -⟩ := remove_both64 (sum := sum) hp hs img hnr hnc ip is o op os hTp hTs hbp hbs hlow'
    hhigh' hroomp hrooms hE hq himg 0
  obtain ⟨hq0, hmild, -⟩ := both_mild64 hp hs (nr := img.nr) (nc := img.nc) (os := os) hlow' hroomp hrooms hq
  obtain ⟨-, hinv, -⟩ := invert_general (fun (cur : Image ℝ) s => Arctic.addCti cur s.1 o .all s.2 .all none)
    (some (exactDirection Lp dp tp ip op), some (exactDirection Ls ds ts is os)) hmild hq0 hq1 hU
    (fun x x1 x2 => both_run64 hp hs ip is o op os hnr hnc x x1 x2)
  obtain ⟨truth, back, t1, t2, t3, t4, -, t5⟩ := hinv (realImage img) rfl rfl hlow
  refine ⟨truth, back, t1.1, t1.2, t4.nr, t4.nc, fun r hr c hc => t2 r (by rw [t1.1]; exact hr) c (by rw [t1.2]; exact hc), t3,
    fun r hr c hc => t4.px r (by rw [t4.nr]; exact hr) c (by rw [t4.nc]; exact hc), fun n => ?_⟩
  obtain ⟨out', b1, b2, b3⟩ := t5 n
  obtain ⟨out, out'', a1, a2, a3, a4, a5, a6, a7, a8⟩ := C94_remove_cti (sum := sum) hp hs img hnr hnc ip is o op os hTp hTs hbp
    hbs hlow' hhigh' hroomp hrooms hE hq himg n
  have e : out'' = out' := by
    have : Except.ok (out'', some (exactDirection Lp dp tp ip op), some (exactDirection Ls ds ts is os)) =
        (Except.ok (out', some (exactDirection Lp dp tp ip op), some (exactDirection Ls ds ts is os)) : Except Err _) :=
      a2.symm.trans b1
    injection this with this
    injection this with this _
  subst e
  refine ⟨out, a1, a3, a4, a7, ?_⟩
  have tri := gridDist_triangle (nr := img.nr) (nc := img.nc) (x := fun r c => Fp.rl (out.px r c)) (y := truth.px) out''.px
  rw [Image.dist_grid a5 a6] at b3
  refine tri.trans ?_
  rw [add_comm]
  refine add_le_add b3 (a8.trans ?_)
  rw [div_eq_mul_inv, mul_comm]
  have hB : 0 ≤ E + img.nr * img.nc * (2 * (cs.P * Scale.u)) := by
    have h1 := hs.whole.ok.N0
    have h2 := hs.whole.ok.P0
    have h3 := mul_nonneg (by linarith : (0 : ℝ) ≤ cs.P) Scale.u_pos.le
    have h4 : (0 : ℝ) ≤ img.nr * img.nc := mul_nonneg (Nat.cast_nonneg _) (Nat.cast_nonneg _)
    have h5 := mul_nonneg h4 (by linarith : 0 ≤ 2 * (cs.P * Scale.u))
    linarith
  refine mul_le_mul_of_nonneg_left ?_ hB
  rw [geom_sum_eq hq1.ne, ← neg_div_neg_eq, inv_eq_one_div]
  have h1 : 0 < 1 - q := by linarith
  have h2 : 0 ≤ q ^ n := pow_nonneg hq0 n
  rw [neg_sub, neg_sub]
  exact div_le_div_of_nonneg_right (by linarith) h1.le

namespace Fp

open B64

/-! ### the size of the error -/

theorem sizes_power128 {Λ : ℝ} (h0 : 0 ≤ Λ) (h : Λ ≤ 48) {K : ℕ} (hK : K ≤ 128) : 9 / 10 ≤ (1 - Λ * sizes.L) ^ K := by
  have hL : sizes.L = 1 / 84700 := rfl
  rw [hL]
  have h1 : (1 - 48 / 84700 : ℝ) ≤ 1 - Λ * (1 / 84700) := by linarith
  have h2 : (0 : ℝ) ≤ 1 - Λ * (1 / 84700) := by linarith
  have h3 : 1 - Λ * (1 / 84700) ≤ 1 := by linarith
  refine le_trans ?_ (pow_le_pow_of_le_one h2 h3 hK)
  refine le_trans ?_ (pow_le_pow_left₀ (by norm_num) h1 128)
  have := one_add_mul_le_pow (a := -(48 / 84700 : ℝ)) (by norm_num) 128
  calc (9 / 10 : ℝ) ≤ 1 + ((128 : ℕ) : ℝ) * (-(48 / 84700 : ℝ)) := by norm_num
    _ ≤ (1 + -(48 / 84700 : ℝ)) ^ 128 := this
    _ = _ := by rw [← sub_eq_add_neg]

theorem sizes_room_low {G : ℕ} (hG : G ≤ 3) {Λ : ℝ} (h0 : 0 ≤ Λ) (h : Λ ≤ 48) {K : ℕ} (hK : K ≤ 128) {low high : ℝ}
    (hlow : 1 / 2 ≤ low) (hhigh : high ≤ 200000) : Room sizes G 1 (1 / 100) Λ K low high := by
  have hrow := sizes_row hG
  have hrow0 := (sizes_whole hG).row0 sizes_ok.net0
  have hK' : (K : ℝ) ≤ 128 := by exact_mod_cast hK
  have hKrow : K * sizes.row G 1 ≤ 128 * (1 / 20000000) := mul_le_mul hK' hrow hrow0 (by norm_num)
  have hKΛ : K * Λ ≤ 128 * 48 := mul_le_mul hK' h h0 (by norm_num)
  refine ⟨by linarith, ?_, ?_⟩
  · rw [Rat.cast_one, one_mul]
    have h2 := mul_le_mul (sizes_power128 h0 h hK) hlow (by norm_num) (le_trans (by norm_num) (sizes_power128 h0 h hK))
    have h1 := sizes_bounds.2.2.1
    have hP : ((sizes.P : ℚ) : ℝ) * Scale.u = 1 / 1073741824 := by
      rw [u_eq]
      change (((2 : ℚ) ^ 18 : ℚ) : ℝ) * _ = _
      norm_num
    rw [hP]
    linarith
  · rw [Rat.cast_one, one_mul, mul_add]
    change _ ≤ (((2 : ℚ) ^ 18 : ℚ) : ℝ)
    norm_num
    linarith

theorem sizes_readout128 {G : ℕ} (hG : G ≤ 3) {Λ : ℝ} (h0 : 0 ≤ Λ) (h : Λ ≤ 48) {n o : ℕ} (hn : n + o ≤ 128) :
    sizes.readout G n o Λ ≤ 1 / 1100 := by
  have hrow := sizes_row hG
  have hrow0 := (sizes_whole hG).row0 sizes_ok.net0
  have hgap := sizes_bounds.2.1
  have hgap0 := sizes_ok.gap0
  have hG' : (G : ℝ) ≤ 3 := by exact_mod_cast hG
  have hGg : G * sizes.gap ≤ 3 * (1 / 1000000000) := mul_le_mul hG' hgap hgap0 (by norm_num)
  have hGg0 : 0 ≤ G * sizes.gap := mul_nonneg (Nat.cast_nonneg _) hgap0
  have hn1 : (n : ℝ) ≤ 128 := by exact_mod_cast (by omega : n ≤ 128)
  have hn2 : ((n + o : ℕ) : ℝ) ≤ 128 := by exact_mod_cast hn
  have hL : sizes.L = 1 / 84700 := rfl
  unfold Scale.readout Scale.pass
  rw [Rat.cast_one, one_mul, hL]
  have hd : (49 / 50 : ℝ) ≤ 1 - 2 * (Λ * (1 / 84700)) := by linarith
  have h1 : n * (sizes.row G 1 + G * sizes.gap) ≤ 128 * (53 / 1000000000) :=
    mul_le_mul hn1 (by linarith) (by linarith) (by norm_num)
  have h2 : n * (sizes.row G 1 + G * sizes.gap) / (1 - 2 * (Λ * (1 / 84700))) ≤ 128 * (53 / 1000000000) / (49 / 50) :=
    div_le_div₀ (by norm_num) h1 (by norm_num) hd
  have h3 : 0 ≤ n * (sizes.row G 1 + G * sizes.gap) / (1 - 2 * (Λ * (1 / 84700))) :=
    div_nonneg (mul_nonneg (Nat.cast_nonneg _) (by linarith)) (by linarith)
  refine (mul_le_mul hn2 h2 h3 (by norm_num)).trans ?_
  norm_num

theorem sizes_slope {Λ Λ' : ℝ} (h0 : 0 ≤ Λ) (h : Λ ≤ 48) (h0' : 0 ≤ Λ') (h' : Λ' ≤ 48) {K K' : ℕ} (hK : K ≤ 128)
    (hK' : K' ≤ 128) : bothSlope (2 * (Λ * sizes.L)) K (2 * (Λ' * sizes.L)) K' ≤ 2 / 5 := by
  have one : ∀ {Λ : ℝ} {K : ℕ}, 0 ≤ Λ → Λ ≤ 48 → K ≤ 128 → (1 / (1 - 2 * (Λ * sizes.L))) ^ K ≤ 118 / 100 ∧
      0 ≤ (1 / (1 - 2 * (Λ * sizes.L))) ^ K := by
    intro Λ K h0 h hK
    have hL : sizes.L = 1 / 84700 := rfl
    rw [hL]
    have hd : (0 : ℝ) < 1 - 2 * (48 * (1 / 84700)) := by norm_num
    have h1 : 1 - 2 * (48 * (1 / 84700)) ≤ 1 - 2 * (Λ * (1 / 84700)) := by linarith
    have h2 : 1 / (1 - 2 * (Λ * (1 / 84700))) ≤ 1 / (1 - 2 * (48 * (1 / 84700))) := one_div_le_one_div_of_le hd h1
    have h3 : 1 ≤ 1 / (1 - 2 * (Λ * (1 / 84700))) := by rw [one_le_div (by linarith)]; linarith
    refine ⟨?_, pow_nonneg (by linarith) K⟩
    refine (pow_le_pow_right₀ h3 hK).trans ((pow_le_pow_left₀ (by linarith) h2 128).trans ?_)
    norm_num
  obtain ⟨a1, a2⟩ := one h0 h hK
  obtain ⟨b1, b2⟩ := one h0' h' hK'
  unfold bothSlope
  have := mul_le_mul a1 b1 b2 (by norm_num)
  linarith

end Fp

open Fp B64 in
set_option maxHeartbeats 1000000 in
/-- **C94**, the size of the error: for images with at most 128 transfers in both directions, up to three groups of up to 16
traps per pixel, a full well of 84700 electrons with power one and between 12300 and 150000 electrons in every pixel, the
errors of all pixels of the corrected image add up to at most half an electron beside what the iteration leaves. -/
theorem C94_size {sum : List B64 → B64} [AnyOrder sum] {wp ws : B64} {dp ds : ℝ} (hwp : ∃ q : ℚ, Val wp q ∧ 0 < q) (hdp : 0 < dp)
    (hws : ∃ q : ℚ, Val ws q ∧ 0 < q) (hds : 0 < ds) {Gp Gs : List (Group B64)} {tp ts : List Ref.Traps}
    (hGp : Gp.length ≤ 3) (hGs : Gs.length ≤ 3) (hgp : List.Forall₂ (GroupNear sizes wp dp) Gp tp)
    (hgs : List.Forall₂ (GroupNear sizes ws ds) Gs ts) (hokp : ∀ t ∈ tp, t.Ok) (hoks : ∀ t ∈ ts, t.Ok)
    (img : Image B64) (hnr : 0 < img.nr) (hnc : 0 < img.nc) (ip is : Bool) (o op os : ℕ) (hn : img.nr + o ≤ 128)
    (hm : img.nc + os ≤ 128)
    (himg : ∀ r < img.nr, ∀ q < img.nc, ∃ v : ℚ, Val (img.px r q) v ∧ 12300 ≤ v ∧ v ≤ 150000) :
    ∃ truth back : Image ℝ, truth.nr = img.nr ∧ truth.nc = img.nc ∧
      Arctic.addCti truth (some (exactDirection (fun _ => Arctic.wellFill 84700 1) dp tp ip op)) o .all
        (some (exactDirection (fun _ => Arctic.wellFill 84700 1) ds ts is os)) .all none =
          .ok (back, some (exactDirection (fun _ => Arctic.wellFill 84700 1) dp tp ip op),
            some (exactDirection (fun _ => Arctic.wellFill 84700 1) ds ts is os)) ∧
      (∀ r < img.nr, ∀ c < img.nc, back.px r c = Fp.rl (img.px r c)) ∧
      ∀ n, ∃ out, Fp.removeCti (B64.arith sum) B64.conv img n (some (direction64 fill84700 wp Gp ip op)) o .all
          (some (direction64 fill84700 ws Gs is os)) .all none =
            .ok (out, some (direction64 fill84700 wp Gp ip op), some (direction64 fill84700 ws Gs is os)) ∧
        ∑ r ∈ Finset.range img.nr, ∑ c ∈ Finset.range img.nc, |Fp.rl (out.px r c) - truth.px r c| ≤
          (2 / 5) ^ n * (∑ r ∈ Finset.range img.nr, ∑ c ∈ Finset.range img.nc, Fp.rl (img.px r c)) + 1 / 2 := by
  obtain ⟨p0, p1⟩ := sizes_totals hgp hGp
  obtain ⟨s0, s1⟩ := sizes_totals hgs hGs
  have hnR : (img.nr : ℝ) ≤ 128 := by exact_mod_cast (by omega : img.nr ≤ 128)
  have hmR : (img.nc : ℝ) ≤ 128 := by exact_mod_cast (by omega : img.nc ≤ 128)
  have hnoR : ((img.nr + o : ℕ) : ℝ) ≤ 128 := by exact_mod_cast hn
  have hP : ((sizes.P : ℚ) : ℝ) * Scale.u = 1 / 1073741824 := by
    rw [u_eq]
    change (((2 : ℚ) ^ 18 : ℚ) : ℝ) * _ = _
    norm_num
  have hrowp := sizes_row hGp
  have hrowp0 := (sizes_whole hGp).row0 sizes_ok.net0
  have hpow := sizes_power128 p0 p1 hn
  have hKrow : ((img.nr + o : ℕ) : ℝ) * sizes.row Gp.length 1 ≤ 128 * (1 / 20000000) :=
    mul_le_mul hnoR hrowp hrowp0 (by norm_num)
  have hKΛ : ((img.nr + o : ℕ) : ℝ) * (Ref.totals tp + sizes.row Gp.length 1) ≤ 128 * 49 :=
    mul_le_mul hnoR (by linarith) (by linarith) (by norm_num)
  have hrp := sizes_readout128 hGp p0 p1 hn
  have hrs := sizes_readout128 hGs s0 s1 hm
  set E : ℝ := img.nc * sizes.readout Gp.length img.nr o (Ref.totals tp) +
    img.nr * sizes.readout Gs.length img.nc os (Ref.totals ts) with hE
  have hE1 : E ≤ 1 / 4 := by
    have e1 := mul_le_mul_of_nonneg_left hrp (Nat.cast_nonneg (α := ℝ) img.nc)
    have e2 := mul_le_mul_of_nonneg_left hrs (Nat.cast_nonneg (α := ℝ) img.nr)
    rw [hE]
    linarith
  set q : ℝ := bothSlope (2 * (Ref.totals tp * sizes.L)) (img.nr + o) (2 * (Ref.totals ts * sizes.L)) (img.nc + os) with hq
  have hq1 : q ≤ 2 / 5 := sizes_slope p0 p1 s0 s1 hn hm
  have hprep := sizes_precise hwp hdp hGp hgp hokp
  have hpres := sizes_precise hws hds hGs hgs hoks
  have hU : ∀ r < img.nr, ∀ c < img.nc, bothRise (Ref.totals tp) (Ref.totals ts) o os r c ≤ 12288 := by
    intro r hr c hc
    have h1 : ((r + o + 1 : ℕ) : ℝ) ≤ 128 := by exact_mod_cast (by omega : r + o + 1 ≤ 128)
    have h2 : ((c + os + 1 : ℕ) : ℝ) ≤ 128 := by exact_mod_cast (by omega : c + os + 1 ≤ 128)
    have h3 := mul_le_mul p1 h1 (Nat.cast_nonneg _) (by norm_num)
    have h4 := mul_le_mul s1 h2 (Nat.cast_nonneg _) (by norm_num)
    unfold bothRise
    linarith
  have hroomp := sizes_room_low (low := 1) (high := 170000) hGp p0 p1 hn (by norm_num) (by norm_num)
  have hrooms := sizes_room_low (low := (1 - Ref.totals tp * sizes.L) ^ (img.nr + o) * 1 - (img.nr + o : ℕ) * sizes.row Gp.length 1)
    (high := 170000 + (img.nr + o : ℕ) * (Ref.totals tp + sizes.row Gp.length 1)) hGs s0 s1 hm (by linarith) (by linarith)
  have hq0 := (both_mild64 (gp := fill84700) (gs := fill84700) (Lp := fun _ => Arctic.wellFill 84700 1)
    (Ls := fun _ => Arctic.wellFill 84700 1) hprep hpres (nr := img.nr) (nc := img.nc) (os := os) rfl hroomp hrooms hq).1
  obtain ⟨truth, back, t1, t2, t3, t4, -, t5, t6, t7⟩ := C94_truth (sum := sum) (gp := fill84700) (gs := fill84700)
    (Lp := fun _ => Arctic.wellFill 84700 1) (Ls := fun _ => Arctic.wellFill 84700 1) hprep hpres img hnr hnc ip is o op os
    (by change img.nr ≤ 2048; omega) (by change img.nc ≤ 2048; omega) (hn.trans (by norm_num)) (hm.trans (by norm_num))
    rfl rfl hroomp hrooms hE hq (by linarith)
    (fun r hr c hc => by
      obtain ⟨v, hv, v1, v2⟩ := himg r hr c hc
      have v1' : (12300 : ℝ) ≤ v := by exact_mod_cast v1
      have v2' : (v : ℝ) ≤ 150000 := by exact_mod_cast v2
      have := hU r hr c hc
      rw [hP]
      exact ⟨v, hv, by linarith, by linarith⟩)
  refine ⟨truth, back, t1, t2, t5, t6, fun n => ?_⟩
  obtain ⟨out, o1, -, -, -, o2⟩ := t7 n
  refine ⟨out, o1, o2.trans (add_le_add ?_ ?_)⟩
  · refine mul_le_mul_of_nonneg_right ?_ (Finset.sum_nonneg fun r hr => Finset.sum_nonneg fun c hc => ?_)
    · rw [div_le_iff₀ (by linarith), pow_succ]
      have h1 : q ^ n ≤ (2 / 5) ^ n := pow_le_pow_left₀ hq0 hq1 n
      have h2 := mul_le_mul h1 (by linarith : q ≤ 1 - q) hq0 (pow_nonneg (by norm_num) n)
      exact h2
    · obtain ⟨v, hv, v1, -⟩ := himg r (Finset.mem_range.1 hr) c (Finset.mem_range.1 hc)
      rw [rl_val hv]
      exact_mod_cast (by linarith : (0 : ℚ) ≤ v)
  · rw [div_le_iff₀ (by linarith), hP]
    have h1 : (img.nr : ℝ) * img.nc ≤ 128 * 128 := mul_le_mul hnR hmR (Nat.cast_nonneg _) (by norm_num)
    linarith

namespace Fp

open B64

/-- `C94_size` applies to an image of 100 times 100 pixels, with sums in the order of numpy. -/
example : ∃ truth back : Image ℝ, truth.nr = 100 ∧ truth.nc = 100 ∧
    Arctic.addCti truth (some (exactDirection (fun _ => Arctic.wellFill 84700 1) 1 [refTraps] true 0)) 4 .all
      (some (exactDirection (fun _ => Arctic.wellFill 84700 1) 1 [refTraps] false 5)) .all none =
        .ok (back, some (exactDirection (fun _ => Arctic.wellFill 84700 1) 1 [refTraps] true 0),
          some (exactDirection (fun _ => Arctic.wellFill 84700 1) 1 [refTraps] false 5)) ∧
    (∀ r < 100, ∀ c < 100, back.px r c = rl (B64.pack 13000)) ∧
    ∀ n, ∃ out, Fp.removeCti (B64.arith B64.sumPairwise) B64.conv ⟨100, 100, fun _ _ => B64.pack 13000⟩ n
        (some (direction64 fill84700 B64.one [tenTraps] true 0)) 4 .all
        (some (direction64 fill84700 B64.one [tenTraps] false 5)) .all none =
          .ok (out, some (direction64 fill84700 B64.one [tenTraps] true 0),
            some (direction64 fill84700 B64.one [tenTraps] false 5)) ∧
      ∑ r ∈ Finset.range 100, ∑ c ∈ Finset.range 100, |rl (out.px r c) - truth.px r c| ≤
        (2 / 5) ^ n * (∑ r ∈ Finset.range 100, ∑ c ∈ Finset.range 100, rl (B64.pack 13000)) + 1 / 2 :=
  C94_size ⟨1, val_one, one_pos⟩ one_pos ⟨1, val_one, one_pos⟩ one_pos (by simp) (by simp)
    (List.Forall₂.cons tenTraps_near .nil) (List.Forall₂.cons tenTraps_near .nil) refExact.traps refExact.traps
    ⟨100, 100, fun _ _ => B64.pack 13000⟩ (by norm_num) (by norm_num) true false 4 0 5 (by norm_num) (by norm_num)
    (fun r _ q _ => ⟨13000, show Val (B64.pack 13000) 13000 by unfold Val; decide +kernel, by norm_num, by norm_num⟩)

end Fp
end Arctic
