import Verif.Props.Brightness
import Verif.Props.TrapErrors
set_option linter.unusedSectionVars false
set_option linter.unusedVariables false

/-!
# C98 — Wrong full well depths and dwell times

Below saturation the full well depth `w`, the density `ρ`, the dwell time `t` and the release timescale `τ` matter only as
`ρ / w^power` and `t / τ`. Two descriptions of an instrument in which these differ by a fraction `ε` at most give images that
differ by at most `20 ε q` times the charge, and an image made with one of them and corrected with the other is wrong by no
more than `q^(n+1) + 20 ε q / (1-q)` times the charge.
-/

namespace Arctic

/-- Two species of traps in wells of depths `w` and `w'` with dwell times `t` and `t'`: what matters of them differs by a
fraction `ε` at most. -/
structure Trap.Alike (ε power w dw w' dw' : ℝ) (t t' : Trap) : Prop where
  density : |t.density / w ^ power - t'.density / w' ^ power| ≤ ε * (t'.density / w' ^ power)
  rate : |dw / t.releaseTimescale - dw' / t'.releaseTimescale| ≤ ε * (dw' / t'.releaseTimescale)

/-- The same numbers of groups and species, alike one by one. -/
def AlikeGroups (ε power w dw w' dw' : ℝ) (gs gs' : List (List Trap)) : Prop :=
  List.Forall₂ (List.Forall₂ (Trap.Alike ε power w dw w' dw')) gs gs'

/-! ## The clock -/

/-- Traps that see `m` times the time. -/
def Ref.Traps.faster (m : ℝ) (t : Ref.Traps) : Ref.Traps := { t with keep := fun x j => t.keep (m * x) j }

theorem faster_transfer (m : ℝ) (t : Ref.Traps) (f : ℝ → ℝ) (dw n : ℝ) :
    (t.faster m).transfer f dw n = ((t.transfer f (m * dw) n).1, (t.transfer f (m * dw) n).2.faster m) := by
  have key : ∀ (u : Ref.Traps) (h a : ℝ), (u.faster m).capture h a = ((u.capture h a).1, (u.capture h a).2.faster m) := by
    intro u h a
    unfold Ref.Traps.capture
    change (if u.vacant h ≤ a then _ else _) = _
    by_cases hc : u.vacant h ≤ a
    · simp only [hc, if_true]; rfl
    · simp only [hc, if_false]; rfl
  unfold Ref.Traps.transfer
  change ((_ - ((t.release (m * dw)).faster m |>.capture _ _).1 : ℝ), ((t.release (m * dw)).faster m |>.capture _ _).2) = _
  rw [key]
  rfl

theorem faster_row (m : ℝ) (f : ℝ → ℝ) (dw : ℝ) (col : ℕ → ℝ) (ts : List Ref.Traps) (x : ℕ × ℝ) :
    Ref.row f dw (col, ts.map (Ref.Traps.faster m)) x =
      ((Ref.row f (m * dw) (col, ts) x).1, (Ref.row f (m * dw) (col, ts) x).2.map (Ref.Traps.faster m)) := by
  have e : (ts.map (Ref.Traps.faster m)).map (fun t => t.transfer f dw (col x.1)) =
      (ts.map fun t => t.transfer f (m * dw) (col x.1)).map fun p => (p.1, p.2.faster m) := by
    rw [List.map_map, List.map_map]
    exact List.map_congr_left fun t _ => faster_transfer m t f dw _
  unfold Ref.row
  simp only [e, List.map_map]
  rfl

theorem faster_readout (m : ℝ) (f : ℝ → ℝ) (dw : ℝ) (ts : List Ref.Traps) (passes : List (List (ℕ × ℝ))) :
    Ref.readout f dw (ts.map (Ref.Traps.faster m)) passes = Ref.readout f (m * dw) ts passes := by
  have hpass : Ref.pass f dw (ts.map (Ref.Traps.faster m)) = Ref.pass f (m * dw) ts := by
    funext col todo
    have : ∀ (todo : List (ℕ × ℝ)) (st : (ℕ → ℝ) × List Ref.Traps),
        todo.foldl (Ref.row f dw) (st.1, st.2.map (Ref.Traps.faster m)) =
          ((todo.foldl (Ref.row f (m * dw)) st).1, (todo.foldl (Ref.row f (m * dw)) st).2.map (Ref.Traps.faster m)) := by
      intro todo
      induction todo with
      | nil => intro st; rfl
      | cons x todo ih =>
        intro st
        rw [List.foldl_cons, List.foldl_cons, faster_row]
        exact ih _
    have key := congrArg Prod.fst (this todo (col, ts))
    exact key
  funext col
  unfold Ref.readout
  rw [hpass]

/-! ## The same instrument described with another depth and dwell time -/

/-- Densities times `(w / full)^power` and release times times `e / dw`. -/
noncomputable def adapted (w full power e dw : ℝ) (gs : List (List Trap)) : List (List Trap) :=
  gs.map (List.map (Trap.rescale ((w / full) ^ power) (e / dw)))

theorem ofTraps_faster {e dw : ℝ} (he : 0 < e) (hdw : 0 < dw) {l : List Trap} (hl : ∀ t ∈ l, t.Bulk) :
    Ref.ofTraps (l.map (Trap.rescale 1 (e / dw))) = (Ref.ofTraps l).faster (dw / e) := by
  refine traps_mk_congr (List.length_map _) (fun j => ?_) fun x j => ?_
  · obtain ⟨d, τ, b, h, -⟩ := hl (l[(j : ℕ)]'(by simpa using j.2)) (List.getElem_mem _)
    simp only [Fin.getElem_fin, List.getElem_map, Fin.val_cast, Ref.ofTraps]
    rw [h]
    exact one_mul d
  · obtain ⟨d, τ, b, h, -, hτ⟩ := hl (l[(j : ℕ)]'(by simpa using j.2)) (List.getElem_mem _)
    simp only [Fin.getElem_fin, List.getElem_map, Fin.val_cast, Ref.ofTraps]
    rw [h]
    simp only [Trap.rescale, Trap.releaseTimescale]
    congr 1
    field_simp

theorem rescale_twice {k mu : ℝ} {l : List Trap} (hl : ∀ t ∈ l, t.Bulk) :
    l.map (Trap.rescale k mu) = (l.map (Trap.rescale k 1)).map (Trap.rescale 1 mu) := by
  rw [List.map_map]
  refine List.map_congr_left fun t ht => ?_
  obtain ⟨d, τ, b, rfl, -⟩ := hl t ht
  change Trap.instant _ _ b = Trap.instant _ _ b
  rw [one_mul, one_mul]

theorem rescale_bulk {k mu : ℝ} (hk : 0 < k) (hmu : 0 < mu) {l : List Trap} (hl : ∀ t ∈ l, t.Bulk) :
    ∀ t ∈ l.map (Trap.rescale k mu), t.Bulk := by
  intro t ht
  obtain ⟨t', ht', rfl⟩ := List.mem_map.1 ht
  obtain ⟨d, τ, b, rfl, h1, h2⟩ := hl t' ht'
  exact ⟨_, _, _, rfl, mul_nonneg hk.le h1, mul_pos hmu h2⟩

theorem trapCount_rescale (k mu : ℝ) (gs : List (List Trap)) (h : ∀ l ∈ gs, ∀ t ∈ l, t.Bulk) :
    trapCount (gs.map (List.map (Trap.rescale k mu))) = k * trapCount gs := by
  unfold trapCount
  rw [List.map_map, ← List.sum_map_mul_left]
  refine congrArg _ (List.map_congr_left fun l hl => ?_)
  rw [Function.comp, List.map_map, ← List.sum_map_mul_left]
  refine congrArg _ (List.map_congr_left fun t ht => ?_)
  obtain ⟨d, τ, b, rfl, -⟩ := h l hl t ht
  rfl

section one
variable {full power dw : ℝ} {gs : List (List Trap)} {i : Bool} {c : CCD} {o : ℕ} {d : PyDirection}

/-- Objects with other traps, depth and dwell time. -/
noncomputable def otherObjects (w power e : ℝ) (gs : List (List Trap)) (i : Bool) (o : ℕ) : PyDirection :=
  ⟨some ⟨[1], [w], [power], [0], []⟩, some (.standard [e] true true true i), some (.list (gs.map .group)), 0, o⟩

theorem ExactObjects.other (h : ExactObjects full power dw gs i c o d) {w e k mu : ℝ} (hw : 0 < w) (he : 0 < e) (hk : 0 < k)
    (hmu : 0 < mu) :
    ExactObjects w power e (gs.map (List.map (Trap.rescale k mu))) i ⟨[1], [w], [power], [0], []⟩ o
      (otherObjects w power e (gs.map (List.map (Trap.rescale k mu))) i o) := by
  refine ⟨rfl, ⟨rfl, rfl, rfl, rfl⟩, hw, h.power, he, by simpa using h.groups.1, fun l hl => ?_⟩
  obtain ⟨l', hl', rfl⟩ := List.mem_map.1 hl
  exact ⟨by simpa using (h.groups.2 l' hl').1, rescale_bulk hk hmu (h.groups.2 l' hl').2⟩

theorem ExactObjects.back (h : ExactObjects full power dw gs i c o d) {w : ℝ} (hw : 0 < w) :
    timesDensity (densityFactor 1 w full power) (timesDensity ((w / full) ^ power) gs) = gs := by
  have hk : densityFactor 1 w full power * (w / full) ^ power = 1 := by
    unfold densityFactor
    have := h.full
    rw [one_mul, one_mul, ← Real.mul_rpow (div_pos this hw).le (div_pos hw this).le]
    rw [show full / w * (w / full) = 1 by field_simp, Real.one_rpow]
  unfold timesDensity
  rw [List.map_map]
  conv_rhs => rw [← List.map_id gs]
  refine List.map_congr_left fun l hl => ?_
  rw [Function.comp, List.map_map, id]
  conv_rhs => rw [← List.map_id l]
  refine List.map_congr_left fun t ht => ?_
  obtain ⟨d, τ, b, rfl, -⟩ := (h.groups.2 l hl).2 t ht
  change Trap.instant _ _ b = Trap.instant d τ b
  rw [one_mul, one_mul, ← mul_assoc, hk, one_mul]

theorem adapted_readout (h : ExactObjects full power dw gs i c o d) {w e : ℝ} (hw : 0 < w) (he : 0 < e)
    (f : ℝ → ℝ) (passes : List (List (ℕ × ℝ))) :
    Ref.readout f e ((adapted w full power e dw gs).map Ref.ofTraps) passes =
      Ref.readout f dw ((timesDensity ((w / full) ^ power) gs).map Ref.ofTraps) passes := by
  have e1 : (adapted w full power e dw gs).map Ref.ofTraps =
      ((timesDensity ((w / full) ^ power) gs).map Ref.ofTraps).map (Ref.Traps.faster (dw / e)) := by
    unfold adapted timesDensity
    rw [List.map_map, List.map_map, List.map_map]
    refine List.map_congr_left fun l hl => ?_
    have hb := (h.groups.2 l hl).2
    rw [Function.comp, rescale_twice hb]
    exact ofTraps_faster he h.dwell (rescale_bulk (Real.rpow_pos_of_pos (div_pos hw h.full) _) one_pos hb)
  rw [e1, faster_readout, div_mul_cancel₀ _ he.ne']

theorem ExactObjects.adapted_exact (h : ExactObjects full power dw gs i c o d) {w e : ℝ} (hw : 0 < w) (he : 0 < e) :
    ExactObjects w power e (adapted w full power e dw gs) i ⟨[1], [w], [power], [0], []⟩ o
      (otherObjects w power e (adapted w full power e dw gs) i o) :=
  h.other hw he (Real.rpow_pos_of_pos (div_pos hw h.full) _) (div_pos he h.dwell)

theorem ExactObjects.adapted_count (h : ExactObjects full power dw gs i c o d) {w e : ℝ} :
    trapCount (adapted w full power e dw gs) = (w / full) ^ power * trapCount gs :=
  trapCount_rescale _ _ _ fun l hl => (h.groups.2 l hl).2

theorem ExactObjects.times_count (h : ExactObjects full power dw gs i c o d) {w : ℝ} (hw : 0 < w) (hwf : w ≤ full) :
    trapCount (timesDensity ((w / full) ^ power) gs) ≤ trapCount gs := by
  unfold timesDensity
  rw [trapCount_rescale _ _ _ fun l hl => (h.groups.2 l hl).2]
  exact mul_le_of_le_one_left h.count_nonneg
    (Real.rpow_le_one (div_pos hw h.full).le (div_le_one_of_le₀ hwf h.full.le) h.power.le)

/-- The slope of the filling law times the number of traps, power one or more. -/
theorem ExactObjects.adapted_slope (h : ExactObjects full power dw gs i c o d) {w e : ℝ} (hw : 0 < w) (hwf : w ≤ full)
    (hp : 1 ≤ power) :
    trapCount (adapted w full power e dw gs) * (power / w) ≤ trapCount gs * (power / full) := by
  rw [h.adapted_count]
  have hq : 0 < w / full := div_pos hw h.full
  have k : (w / full) ^ power ≤ w / full := by
    have := Real.rpow_le_rpow_of_exponent_ge hq (div_le_one_of_le₀ hwf h.full.le) hp
    rwa [Real.rpow_one] at this
  have h1 : 0 ≤ trapCount gs * (power / w) := mul_nonneg h.count_nonneg (div_pos h.power hw).le
  have h2 := mul_le_mul_of_nonneg_right k h1
  have h3 : w / full * (trapCount gs * (power / w)) = trapCount gs * (power / full) := by
    have := h.full.ne'
    field_simp
  linarith

end one

theorem AlikeGroups.adapted {ε power f dw f' dw' w e : ℝ} {gs gs' : List (List Trap)} {i i' : Bool} {c c' : CCD} {o o' : ℕ}
    {d d' : PyDirection} (h : ExactObjects f power dw gs i c o d) (h' : ExactObjects f' power dw' gs' i' c' o' d')
    (hw : 0 < w) (he : 0 < e) (ha : AlikeGroups ε power f dw f' dw' gs gs') :
    NearGroups ε (Arctic.adapted w f power e dw gs) (Arctic.adapted w f' power e dw' gs') := by
  have hf := h.full
  have hf' := h'.full
  have hd := h.dwell
  have hd' := h'.dwell
  have g1 := fun l hl => (h.groups.2 l hl).2
  have g2 := fun l hl => (h'.groups.2 l hl).2
  clear h h'
  unfold Arctic.adapted
  induction ha with
  | nil => exact .nil
  | @cons l l' gs gs' hl hgs ih =>
    refine .cons ?_ (ih (fun l hl => g1 l (List.mem_cons_of_mem _ hl)) fun l hl => g2 l (List.mem_cons_of_mem _ hl))
    replace g1 := g1 l List.mem_cons_self
    replace g2 := g2 l' List.mem_cons_self
    clear hgs ih
    induction hl with
    | nil => exact .nil
    | @cons t t' l l' ht hl ih =>
      refine .cons ?_ (ih (fun t ht => g1 t (List.mem_cons_of_mem _ ht)) fun t ht => g2 t (List.mem_cons_of_mem _ ht))
      obtain ⟨ρ, τ, b, rfl, -, hτ⟩ := g1 t List.mem_cons_self
      obtain ⟨ρ', τ', b', rfl, -, hτ'⟩ := g2 t' List.mem_cons_self
      obtain ⟨a1, a2⟩ := ht
      simp only [Trap.density, Trap.releaseTimescale] at a1 a2
      have hwp : 0 < w ^ power := Real.rpow_pos_of_pos hw _
      constructor
      · simp only [Trap.rescale, Trap.density]
        rw [Real.div_rpow hw.le hf.le, Real.div_rpow hw.le hf'.le]
        have e1 : w ^ power / f ^ power * ρ - w ^ power / f' ^ power * ρ' = w ^ power * (ρ / f ^ power - ρ' / f' ^ power) := by
          ring
        rw [e1, abs_mul, abs_of_pos hwp]
        refine (mul_le_mul_of_nonneg_left a1 hwp.le).trans (le_of_eq ?_)
        ring
      · simp only [Trap.rescale, Trap.releaseTimescale]
        have e1 : ∀ (a t : ℝ), 0 < a → 0 < t → 1 / (e / a * t) = 1 / e * (a / t) := fun a t ha ht => by field_simp
        rw [e1 _ _ hd hτ, e1 _ _ hd' hτ', ← mul_sub, abs_mul, abs_of_pos (one_div_pos.2 he)]
        refine (mul_le_mul_of_nonneg_left a2 (one_div_pos.2 he).le).trans (le_of_eq ?_)
        ring

/-! ## Images -/

section main
variable {fp fs fp' fs' pp ps dp ds dp' ds' : ℝ} {gp gs gp' gs' : List (List Trap)} {ip is ip' is' : Bool}
  {cp cs cp' cs' : CCD} {op os : ℕ} {par ser par' ser' : PyDirection}

/-- Both directions: the description with the depths `wp` and `ws` and dwell times `ep` and `es` does the same. -/
theorem both_adapted (hp : ExactObjects fp pp dp gp ip cp op par) (hs : ExactObjects fs ps ds gs is cs os ser)
    {wp ws ep es : ℝ} (hwp : 0 < wp) (hws : 0 < ws) (hwpf : wp ≤ fp) (hwsf : ws ≤ fs) (hep : 0 < ep) (hes : 0 < es)
    (nr nc : ℕ) (B T S : ℝ) (hT : trapCount gp ≤ T) (hS : trapCount gs ≤ S)
    (hBp : B + ((nr + op : ℕ) + 1) * T ≤ wp) (hBs : B + (nr + op : ℕ) * T + ((nc + os : ℕ) + 1) * S ≤ ws) :
    Proportional nr nc 1 B ((nr + op : ℕ) * T + (nc + os : ℕ) * S)
      (fun x r c => Ref.readout (wellFill ws ps) es ((adapted ws fs ps es ds gs).map Ref.ofTraps) (Ref.allPasses nc os)
        (fun c => Ref.readout (wellFill wp pp) ep ((adapted wp fp pp ep dp gp).map Ref.ofTraps) (Ref.allPasses nr op)
          (fun r => x r c) r) c)
      (fun x r c => Ref.readout (wellFill fs ps) ds (gs.map Ref.ofTraps) (Ref.allPasses nc os)
        (fun c => Ref.readout (wellFill fp pp) dp (gp.map Ref.ofTraps) (Ref.allPasses nr op) (fun r => x r c) r) c) := by
  have kp := Real.rpow_pos_of_pos (div_pos hwp hp.full) pp
  have ks := Real.rpow_pos_of_pos (div_pos hws hs.full) ps
  have Hp : ExactObjects wp pp dp (timesDensity ((wp / fp) ^ pp) gp) ip _ op _ := hp.other hwp hp.dwell kp one_pos
  have Hs : ExactObjects ws ps ds (timesDensity ((ws / fs) ^ ps) gs) is _ os _ := hs.other hws hs.dwell ks one_pos
  have tp := (hp.times_count hwp hwpf).trans hT
  have ts := (hs.times_count hws hwsf).trans hS
  have np : (0 : ℝ) ≤ (nr + op : ℕ) := Nat.cast_nonneg _
  have ns : (0 : ℝ) ≤ (nc + os : ℕ) := Nat.cast_nonneg _
  have m1 := mul_le_mul_of_nonneg_left tp np
  have m2 := mul_le_mul_of_nonneg_left ts ns
  have law := both_proportional (s := 1) Hp Hs (fp' := fp) (fs' := fs) (par' := par) (ser' := ser) (ip' := ip) (is' := is)
    (cp' := cp) (cs' := cs) (by rw [hp.back hwp]; exact hp) (by rw [hs.back hws]; exact hs) one_pos
    (by rw [one_mul]; exact hwpf) (by rw [one_mul]; exact hwsf) nr nc B (by linarith) (by linarith)
  rw [hp.back hwp, hs.back hws] at law
  simp only [adapted_readout hp hwp hep, adapted_readout hs hws hes]
  exact ⟨law.scale, fun x hx r hr c hc => (sub_le_sub_left (add_le_add m1 m2) _).trans (law.drop x hx r hr c hc),
    law.congr, law.congr'⟩

/-- No pixel gains more than all traps hold in all transfers. -/
theorem both_rise (hp : ExactObjects fp pp dp gp ip cp op par) (hs : ExactObjects fs ps ds gs is cs os ser)
    (nr nc : ℕ) (B T S : ℝ) (hT : trapCount gp ≤ T) (hS : trapCount gs ≤ S)
    (hBp : B + ((nr + op : ℕ) + 1) * T ≤ fp) (hBs : B + (nr + op : ℕ) * T + ((nc + os : ℕ) + 1) * S ≤ fs)
    (x : ℕ → ℕ → ℝ) (hx : ∀ r < nr, ∀ c < nc, max 0 (x r c) ≤ B) (r : ℕ) (hr : r < nr) (c : ℕ) (hc : c < nc) :
    max 0 (Ref.readout (wellFill fs ps) ds (gs.map Ref.ofTraps) (Ref.allPasses nc os)
        (fun c => Ref.readout (wellFill fp pp) dp (gp.map Ref.ofTraps) (Ref.allPasses nr op) (fun r => x r c) r) c) ≤
      max 0 (x r c) + ((nr + op : ℕ) * T + (nc + os : ℕ) * S) := by
  have one : ∀ {f p dw : ℝ} {g : List (List Trap)} {i : Bool} {c : CCD} {o : ℕ} {d : PyDirection},
      ExactObjects f p dw g i c o d → ExactObjects f p dw (timesDensity (densityFactor 1 f f p) g) i c o d := by
    intro f p dw g i c o d h
    have : densityFactor 1 f f p = 1 := by
      unfold densityFactor
      rw [one_mul, one_mul, div_self h.full.ne', Real.one_rpow]
    rw [this, timesDensity_one h]
    exact h
  have np : (0 : ℝ) ≤ (nr + op : ℕ) := Nat.cast_nonneg _
  have ns : (0 : ℝ) ≤ (nc + os : ℕ) := Nat.cast_nonneg _
  have m1 := mul_le_mul_of_nonneg_left hT np
  have m2 := mul_le_mul_of_nonneg_left hS ns
  have P : ∀ c < nc, ∀ r, _ := fun c hc => (hp.stretch (one hp) one_pos (by rw [one_mul]) nr (fun r => x r c)
    fun r hr => by linarith [hx r hr c hc]).2.1
  have Q := (hs.stretch (one hs) one_pos (by rw [one_mul]) nc (fun c => Ref.readout (wellFill fp pp) dp (gp.map Ref.ofTraps)
    (Ref.allPasses nr op) (fun r => x r c) r) fun c hc => by linarith [hx r hr c hc, P c hc r]).2.1 c
  linarith [P c hc r]

theorem dist_congr {a b a' b' : Image ℝ} (h1 : a.nr = a'.nr) (h2 : a.nc = a'.nc) (ha : SameGrid a.nr a.nc a.px a'.px)
    (hb : SameGrid a.nr a.nc b.px b'.px) : a.dist b = a'.dist b' := by
  unfold Image.dist
  rw [← h1, ← h2]
  refine Finset.sum_congr rfl fun r hr => Finset.sum_congr rfl fun c hc => ?_
  rw [ha r (Finset.mem_range.1 hr) c (Finset.mem_range.1 hc), hb r (Finset.mem_range.1 hr) c (Finset.mem_range.1 hc)]

theorem removeSeq_congr {nr nc : ℕ} {F : (ℕ → ℕ → ℝ) → ℕ → ℕ → ℝ}
    (hF : ∀ x y, SameGrid nr nc x y → SameGrid nr nc (F x) (F y)) {i j : ℕ → ℕ → ℝ} (h : SameGrid nr nc i j) (n : ℕ) :
    SameGrid nr nc (removeSeq F i n) (removeSeq F j n) := by
  induction n with
  | zero => exact h
  | succ n ih =>
    intro r hr c hc
    change removeSeq F i n r c + (i r c - F (removeSeq F i n) r c) = removeSeq F j n r c + (j r c - F (removeSeq F j n) r c)
    rw [ih r hr c hc, h r hr c hc, hF _ _ ih r hr c hc]

/-- **C98**: `add_cti` with two descriptions of the instrument, `well_fill_power ≥ 1`: what matters of traps, wells and clock
differs by a fraction `ε` at most. With `q` as in C81 the images differ by at most `20 ε q` times the charge of the image,
summed over all pixels. The pixels must stay below all the full well depths. -/
theorem C98_add_cti (hp : ExactObjects fp pp dp gp ip cp op par) (hs : ExactObjects fs ps ds gs is cs os ser)
    (hp' : ExactObjects fp' pp dp' gp' ip' cp' op par') (hs' : ExactObjects fs' ps ds' gs' is' cs' os ser') (ε : ℝ)
    (h0 : 0 ≤ ε) (h1 : ε ≤ 1) (np : AlikeGroups ε pp fp dp fp' dp' gp gp') (ns : AlikeGroups ε ps fs ds fs' ds' gs gs')
    (hpp : 1 ≤ pp) (hps : 1 ≤ ps) (img : Image ℝ) (hnr : 0 < img.nr) (hnc : 0 < img.nc)
    (himg : ∀ r < img.nr, ∀ c < img.nc, 0 ≤ img.px r c) (lp ls q : ℝ)
    (hlp : 2 * (trapCount gp * (pp / fp)) ≤ lp) (hlp' : 2 * (trapCount gp' * (pp / fp')) ≤ lp)
    (hls : 2 * (trapCount gs * (ps / fs)) ≤ ls) (hls' : 2 * (trapCount gs' * (ps / fs')) ≤ ls) (hlp1 : lp < 1) (hls1 : ls < 1)
    (hq : q = (1 / (1 - lp)) ^ (img.nr + op) * (1 / (1 - ls)) ^ (img.nc + os) - 1)
    (T S top : ℝ) (hT : trapCount gp ≤ T ∧ trapCount gp' ≤ T) (hS : trapCount gs ≤ S ∧ trapCount gs' ≤ S)
    (htop : 0 < top) (hfull : (top ≤ fp ∧ top ≤ fp') ∧ top ≤ fs ∧ top ≤ fs')
    (hroom : ∀ r < img.nr, ∀ c < img.nc,
      img.px r c + ((img.nr + op : ℕ) + 1) * T + ((img.nc + os : ℕ) + 1) * S ≤ top) :
    ∃ a b roes roes', addCtiPy img par .all ser .all none = .ok (a, roes) ∧
      addCtiPy img par' .all ser' .all none = .ok (b, roes') ∧ a.SameShape img ∧ b.SameShape img ∧
      a.dist b ≤ 20 * ε * q * img.total := by
  have T0 : 0 ≤ T := hp.count_nonneg.trans hT.1
  have S0 : 0 ≤ S := hs.count_nonneg.trans hS.1
  have nr0 : (0 : ℝ) ≤ (img.nr + op : ℕ) := Nat.cast_nonneg _
  have nc0 : (0 : ℝ) ≤ (img.nc + os : ℕ) := Nat.cast_nonneg _
  have pT := mul_nonneg nr0 T0
  have pS := mul_nonneg nc0 S0
  set B := top - ((img.nr + op : ℕ) + 1) * T - ((img.nc + os : ℕ) + 1) * S with hB
  have hx : ∀ r < img.nr, ∀ c < img.nc, max 0 (img.px r c) ≤ B := fun r hr c hc => by
    rw [max_eq_right (himg r hr c hc)]
    linarith [hroom r hr c hc]
  have law := both_adapted hp hs htop htop hfull.1.1 hfull.2.1 hp.dwell hs.dwell img.nr img.nc B T S hT.1 hS.1
    (by linarith) (by linarith)
  have law' := both_adapted hp' hs' htop htop hfull.1.2 hfull.2.2 hp.dwell hs.dwell img.nr img.nc B T S hT.2 hS.2
    (by linarith) (by linarith)
  have Hp := hp.adapted_exact htop hp.dwell
  have Hs := hs.adapted_exact htop hs.dwell
  have Hp' := hp'.adapted_exact htop hp.dwell
  have Hs' := hs'.adapted_exact htop hs.dwell
  obtain ⟨a2, b2, _, _, A1, B1, sA, sB, key⟩ := C81_add_cti Hp Hs Hp' Hs' ε h0 h1 (np.adapted hp hp' htop hp.dwell)
    (ns.adapted hs hs' htop hs.dwell) hpp hps img hnr hnc himg lp ls q
    (by linarith [hp.adapted_slope (e := dp) htop hfull.1.1 hpp]) (by linarith [hp'.adapted_slope (e := dp) htop hfull.1.2 hpp])
    (by linarith [hs.adapted_slope (e := ds) htop hfull.2.1 hps]) (by linarith [hs'.adapted_slope (e := ds) htop hfull.2.2 hps])
    hlp1 hls1 hq
  obtain ⟨a, g1, g2, g3, g4⟩ := both_run hp hs hnr hnc img rfl rfl
  obtain ⟨b, k1, k2, k3, k4⟩ := both_run hp' hs' hnr hnc img rfl rfl
  obtain ⟨a3, u1, u2, u3, u4⟩ := both_run Hp Hs hnr hnc img rfl rfl
  obtain ⟨b3, v1, v2, v3, v4⟩ := both_run Hp' Hs' hnr hnc img rfl rfl
  rw [A1, Except.ok.injEq, Prod.mk.injEq] at u1
  rw [B1, Except.ok.injEq, Prod.mk.injEq] at v1
  obtain ⟨rfl, -⟩ := u1
  obtain ⟨rfl, -⟩ := v1
  refine ⟨a, b, _, _, g1, k1, ⟨g2, g3⟩, ⟨k2, k3⟩, le_trans (le_of_eq ?_) key⟩
  refine dist_congr (g2.trans u2.symm) (g3.trans u3.symm) (fun r hr c hc => ?_) fun r hr c hc => ?_
  · rw [g2] at hr
    rw [g3] at hc
    rw [g4 r hr c hc, u4 r hr c hc]
    simpa only [one_mul] using law.scale img.px hx r hr c hc
  · rw [g2] at hr
    rw [g3] at hc
    rw [k4 r hr c hc, v4 r hr c hc]
    simpa only [one_mul] using law'.scale img.px hx r hr c hc

/-- **C98**: `remove_cti` with a wrong description of the instrument. The image was made by `add_cti` from the true image with
other traps, full well depths and dwell times; what matters of them differs by a fraction `ε` at most. With `q < 1` as in C81
the image returned after `n` iterations differs from the true image by at most `q^(n+1) + 20 ε q / (1-q)` times the charge. -/
theorem C98_remove_cti (hp : ExactObjects fp pp dp gp ip cp op par) (hs : ExactObjects fs ps ds gs is cs os ser)
    (hp' : ExactObjects fp' pp dp' gp' ip' cp' op par') (hs' : ExactObjects fs' ps ds' gs' is' cs' os ser') (ε : ℝ)
    (h0 : 0 ≤ ε) (h1 : ε ≤ 1) (np : AlikeGroups ε pp fp dp fp' dp' gp gp') (ns : AlikeGroups ε ps fs ds fs' ds' gs gs')
    (hpp : 1 ≤ pp) (hps : 1 ≤ ps) (truth : Image ℝ) (hnr : 0 < truth.nr) (hnc : 0 < truth.nc) (lp ls q : ℝ)
    (hlp : 2 * (trapCount gp * (pp / fp)) ≤ lp) (hlp' : 2 * (trapCount gp' * (pp / fp')) ≤ lp)
    (hls : 2 * (trapCount gs * (ps / fs)) ≤ ls) (hls' : 2 * (trapCount gs' * (ps / fs')) ≤ ls) (hlp1 : lp < 1) (hls1 : ls < 1)
    (hq : q = (1 / (1 - lp)) ^ (truth.nr + op) * (1 / (1 - ls)) ^ (truth.nc + os) - 1) (hq1 : q < 1) (hpos : 0 ≤ truth.total)
    (htruth : ∀ r < truth.nr, ∀ c < truth.nc, (q + 20 * ε * q / (1 - q)) * truth.total ≤ truth.px r c)
    (T S top : ℝ) (hT : trapCount gp ≤ T ∧ trapCount gp' ≤ T) (hS : trapCount gs ≤ S ∧ trapCount gs' ≤ S)
    (htop : 0 < top) (hfull : (top ≤ fp ∧ top ≤ fp') ∧ top ≤ fs ∧ top ≤ fs')
    (hroom : ∀ r < truth.nr, ∀ c < truth.nc,
      max 0 (truth.px r c) + (3 * (truth.nr + op : ℕ) + 1) * T + (3 * (truth.nc + os : ℕ) + 1) * S ≤ top) :
    ∃ img roes, addCtiPy truth par' .all ser' .all none = .ok (img, roes) ∧
      ∀ n, ∃ out, removeCtiPy img n par .all ser .all none = .ok (out, par.roe, ser.roe) ∧ out.SameShape truth ∧
        out.dist truth ≤ (q ^ (n + 1) + 20 * ε * q / (1 - q)) * truth.total := by
  have T0 : 0 ≤ T := hp.count_nonneg.trans hT.1
  have S0 : 0 ≤ S := hs.count_nonneg.trans hS.1
  have nr0 : (0 : ℝ) ≤ (truth.nr + op : ℕ) := Nat.cast_nonneg _
  have nc0 : (0 : ℝ) ≤ (truth.nc + os : ℕ) := Nat.cast_nonneg _
  have pT := mul_nonneg nr0 T0
  have pS := mul_nonneg nc0 S0
  set B := top - ((truth.nr + op : ℕ) + 1) * T - ((truth.nc + os : ℕ) + 1) * S with hB
  have hx : ∀ r < truth.nr, ∀ c < truth.nc, max 0 (truth.px r c) ≤ B := fun r hr c hc => by linarith [hroom r hr c hc]
  have law := both_adapted hp hs htop htop hfull.1.1 hfull.2.1 hp.dwell hs.dwell truth.nr truth.nc B T S hT.1 hS.1
    (by linarith) (by linarith)
  have law' := both_adapted hp' hs' htop htop hfull.1.2 hfull.2.2 hp.dwell hs.dwell truth.nr truth.nc B T S hT.2 hS.2
    (by linarith) (by linarith)
  have Hp := hp.adapted_exact htop hp.dwell
  have Hs := hs.adapted_exact htop hs.dwell
  have Hp' := hp'.adapted_exact htop hp.dwell
  have Hs' := hs'.adapted_exact htop hs.dwell
  obtain ⟨img2, _, B1, key⟩ := C81_remove_cti Hp Hs Hp' Hs' ε h0 h1 (np.adapted hp hp' htop hp.dwell)
    (ns.adapted hs hs' htop hs.dwell) hpp hps truth hnr hnc lp ls q
    (by linarith [hp.adapted_slope (e := dp) htop hfull.1.1 hpp]) (by linarith [hp'.adapted_slope (e := dp) htop hfull.1.2 hpp])
    (by linarith [hs.adapted_slope (e := ds) htop hfull.2.1 hps]) (by linarith [hs'.adapted_slope (e := ds) htop hfull.2.2 hps])
    hlp1 hls1 hq hq1 hpos htruth
  obtain ⟨⟨m1, m2, px⟩, k1, k2, k3, k4⟩ := both_run hp' hs' hnr hnc truth rfl rfl
  obtain ⟨⟨m1', m2', px2⟩, v1, v2, v3, v4⟩ := both_run Hp' Hs' hnr hnc truth rfl rfl
  dsimp only at k2 k3 v2 v3
  subst k2 k3 v2 v3
  change SameGrid _ _ px _ at k4
  change SameGrid _ _ px2 _ at v4
  rw [B1, Except.ok.injEq, Prod.mk.injEq] at v1
  obtain ⟨rfl, -⟩ := v1
  have same : SameGrid truth.nr truth.nc px px2 := fun r hr c hc => by
    rw [k4 r hr c hc, v4 r hr c hc]
    simpa only [one_mul] using law'.scale truth.px hx r hr c hc
  have room : ∀ r < truth.nr, ∀ c < truth.nc,
      max 0 (px r c) + ((truth.nr + op : ℕ) * T + (truth.nc + os : ℕ) * S) ≤ B := fun r hr c hc => by
    have h1 := both_rise hp' hs' truth.nr truth.nc B T S hT.2 hS.2 (by linarith) (by linarith) truth.px hx r hr c hc
    rw [k4 r hr c hc]
    linarith [hroom r hr c hc]
  refine ⟨_, _, k1, fun n => ?_⟩
  obtain ⟨out2, o1, o2, o3⟩ := key n
  obtain ⟨out, a1, a2, a3⟩ := removeIter_grid (addAgain par ser) (par.roe, ser.roe) ⟨truth.nr, truth.nc, px⟩ law.congr'
    (fun x hx => by
      obtain ⟨y, y1, y2, y3, y4⟩ := both_run hp hs hnr hnc x hx.1 hx.2
      exact ⟨y, addAgain_both hp hs x y y1, ⟨y2, y3⟩, y4⟩) n
  obtain ⟨out3, b1, b2, b3⟩ := removeIter_grid (addAgain _ _) (_, _) ⟨truth.nr, truth.nc, px2⟩ law.congr
    (fun x hx => by
      obtain ⟨y, y1, y2, y3, y4⟩ := both_run Hp Hs hnr hnc x hx.1 hx.2
      exact ⟨y, addAgain_both Hp Hs x y y1, ⟨y2, y3⟩, y4⟩) n
  have e : out2 = out3 := congrArg Prod.fst (Except.ok.inj (o1.symm.trans b1))
  subst e
  refine ⟨out, a1, a2, le_trans (le_of_eq ?_) o3⟩
  refine dist_congr (a2.1.trans b2.1.symm) (a2.2.trans b2.2.symm) (fun r hr c hc => ?_) fun _ _ _ _ => rfl
  rw [a2.1] at hr
  rw [a2.2] at hc
  have s1 := (law.remove (add_nonneg pT pS) px room n).2 r hr c hc
  simp only [one_mul] at s1
  exact (a3 r hr c hc).trans (s1.trans ((removeSeq_congr law.congr same n r hr c hc).trans (b3 r hr c hc).symm))

/-- Parallel clocking: the description with the depth `w` and the dwell time `e` does the same, and how much a pixel gains. -/
theorem parallel_adapted (hp : ExactObjects fp pp dp gp ip cp op par) {w e : ℝ} (hw : 0 < w) (hwf : w ≤ fp) (he : 0 < e)
    (nr nc : ℕ) (B T : ℝ) (hT : trapCount gp ≤ T) (hB : B + ((nr + op : ℕ) + 1) * T ≤ w) :
    Proportional nr nc 1 B ((nr + op : ℕ) * T)
      (fun x r c => Ref.readout (wellFill w pp) e ((adapted w fp pp e dp gp).map Ref.ofTraps) (Ref.allPasses nr op)
        (fun r => x r c) r)
      (fun x r c => Ref.readout (wellFill fp pp) dp (gp.map Ref.ofTraps) (Ref.allPasses nr op) (fun r => x r c) r) ∧
    ∀ x : ℕ → ℕ → ℝ, (∀ r < nr, ∀ c < nc, max 0 (x r c) ≤ B) → ∀ r < nr, ∀ c < nc,
      max 0 (Ref.readout (wellFill fp pp) dp (gp.map Ref.ofTraps) (Ref.allPasses nr op) (fun r => x r c) r) ≤
        max 0 (x r c) + (nr + op : ℕ) * T := by
  have Hp : ExactObjects w pp dp (timesDensity ((w / fp) ^ pp) gp) ip _ op _ :=
    hp.other hw hp.dwell (Real.rpow_pos_of_pos (div_pos hw hp.full) pp) one_pos
  have tp := (hp.times_count hw hwf).trans hT
  have np : (0 : ℝ) ≤ (nr + op : ℕ) := Nat.cast_nonneg _
  have m1 := mul_le_mul_of_nonneg_left tp np
  have P : ∀ x : ℕ → ℕ → ℝ, (∀ r < nr, ∀ c < nc, max 0 (x r c) ≤ B) → ∀ c < nc, _ := fun x hx c hc =>
    Hp.stretch (s := 1) (full' := fp) (d' := par) (i' := ip) (c' := cp) (by rw [hp.back hw]; exact hp) one_pos
      (by rw [one_mul]; exact hwf) nr (fun r => x r c) fun r hr => by linarith [hx r hr c hc]
  simp only [adapted_readout hp hw he]
  simp only [hp.back hw, one_mul] at P
  refine ⟨⟨fun x hx r hr c hc => ?_, fun x hx r hr c hc => ?_, fun x y hxy r hr c hc => ?_, fun x y hxy r hr c hc => ?_⟩,
    fun x hx r hr c hc => ?_⟩
  · simp only [one_mul]
    exact congrFun (P x hx c hc).1 r
  · linarith [(P x hx c hc).2.2 r]
  · exact readout_congr _ _ _ nr _ (allPasses_rows nr op) _ _ (fun r hr => hxy r hr c hc) r hr
  · exact readout_congr _ _ _ nr _ (allPasses_rows nr op) _ _ (fun r hr => hxy r hr c hc) r hr
  · rw [congrFun (P x hx c hc).1 r]
    linarith [(P x hx c hc).2.1 r]

/-- Traps per electron of background. -/
theorem ExactObjects.adapted_load (hp : ExactObjects fp pp dp gp ip cp op par) {w e b : ℝ} (hw : 0 < w) (hwf : w ≤ fp)
    (hb : 0 < b) (hbw : b ≤ w) :
    trapCount (adapted w fp pp e dp gp) * (wellFill w pp b / b) = trapCount gp * (wellFill fp pp b / b) := by
  have := wellFill_stretch (s := 1) (power := pp) one_pos hw hp.full (by rw [one_mul]; exact hwf) hbw
  rw [one_mul, one_mul] at this
  rw [hp.adapted_count, this]
  ring

/-- **C98** for parallel clocking with `well_fill_power ≤ 1` and a background, as in C81: `remove_cti` with a wrong
description of the instrument. -/
theorem C98_background (hp : ExactObjects fp pp dp gp ip cp op par) (hp' : ExactObjects fp' pp dp' gp' ip' cp' op par')
    (ε : ℝ) (h0 : 0 ≤ ε) (h1 : ε ≤ 1) (np : AlikeGroups ε pp fp dp fp' dp' gp gp') (hpp : pp ≤ 1) (truth : Image ℝ)
    (hnr : 0 < truth.nr) (b low k q : ℝ) (hb : 0 < b) (hk : trapCount gp * (wellFill fp pp b / b) ≤ k)
    (hk' : trapCount gp' * (wellFill fp' pp b / b) ≤ k) (hk1 : 2 * k < 1)
    (hlow : b ≤ (1 - k) ^ (truth.nr + op) * low) (hq : q = (1 / (1 - 2 * k)) ^ (truth.nr + op) - 1) (hq1 : q < 1)
    (hpos : 0 ≤ truth.total)
    (htruth : ∀ r < truth.nr, ∀ c < truth.nc, low + (q + 20 * ε * q / (1 - q)) * truth.total ≤ truth.px r c)
    (T top : ℝ) (hT : trapCount gp ≤ T ∧ trapCount gp' ≤ T) (hbtop : b ≤ top) (hfull : top ≤ fp ∧ top ≤ fp')
    (hroom : ∀ r < truth.nr, ∀ c < truth.nc, max 0 (truth.px r c) + (3 * (truth.nr + op : ℕ) + 1) * T ≤ top) :
    ∃ img roes, addCtiPy truth par' .all .absent .all none = .ok (img, roes) ∧
      ∀ n, ∃ out, removeCtiPy img n par .all .absent .all none = .ok (out, par.roe, none) ∧ out.SameShape truth ∧
        out.dist truth ≤ (q ^ (n + 1) + 20 * ε * q / (1 - q)) * truth.total := by
  have htop : 0 < top := hb.trans_le hbtop
  have T0 : 0 ≤ T := hp.count_nonneg.trans hT.1
  have nr0 : (0 : ℝ) ≤ (truth.nr + op : ℕ) := Nat.cast_nonneg _
  have pT := mul_nonneg nr0 T0
  set B := top - ((truth.nr + op : ℕ) + 1) * T with hB
  have hx : ∀ r < truth.nr, ∀ c < truth.nc, max 0 (truth.px r c) ≤ B := fun r hr c hc => by linarith [hroom r hr c hc]
  obtain ⟨law, -⟩ := parallel_adapted hp htop hfull.1 hp.dwell truth.nr truth.nc B T hT.1 (by linarith)
  obtain ⟨law', rise⟩ := parallel_adapted hp' htop hfull.2 hp.dwell truth.nr truth.nc B T hT.2 (by linarith)
  have Hp := hp.adapted_exact htop hp.dwell
  have Hp' := hp'.adapted_exact htop hp.dwell
  obtain ⟨img2, _, B1, key⟩ := C81_background Hp Hp' ε h0 h1 (np.adapted hp hp' htop hp.dwell) hpp truth hnr b low k q hb
    (by rw [hp.adapted_load htop hfull.1 hb hbtop]; exact hk) (by rw [hp'.adapted_load htop hfull.2 hb hbtop]; exact hk')
    hk1 hlow hq hq1 hpos htruth
  obtain ⟨⟨m1, m2, px⟩, k1, k2, k3, k4⟩ := C55_parallel truth hnr _ _ _ _ _ _ _ _ hp'
  obtain ⟨⟨m1', m2', px2⟩, v1, v2, v3, v4⟩ := C55_parallel truth hnr _ _ _ _ _ _ _ _ Hp'
  dsimp only at k2 k3 v2 v3 k4 v4
  subst k2 k3 v2 v3
  rw [B1, Except.ok.injEq, Prod.mk.injEq] at v1
  obtain ⟨rfl, -⟩ := v1
  have same : SameGrid truth.nr truth.nc px px2 := fun r hr c hc => by
    rw [k4 r hr c hc, v4 r hr c hc]
    simpa only [one_mul] using law'.scale truth.px hx r hr c hc
  have room : ∀ r < truth.nr, ∀ c < truth.nc, max 0 (px r c) + (truth.nr + op : ℕ) * T ≤ B := fun r hr c hc => by
    have h1 := rise truth.px hx r hr c hc
    rw [k4 r hr c hc]
    linarith [hroom r hr c hc]
  refine ⟨_, _, k1, fun n => ?_⟩
  obtain ⟨out2, o1, o2, o3⟩ := key n
  obtain ⟨out, a1, a2, a3⟩ := removeIter_grid (addAgain par .absent) (par.roe, none) ⟨truth.nr, truth.nc, px⟩ law.congr'
    (fun x hx => by
      obtain ⟨y, y1, y2, y3, y4⟩ := C55_parallel x (by rw [hx.1]; exact hnr) _ _ _ _ _ _ _ _ hp
      rw [hx.1, hx.2] at y4
      exact ⟨y, addAgain_parallel hp x y y1, ⟨y2.trans hx.1, y3.trans hx.2⟩, y4⟩) n
  obtain ⟨out3, b1, b2, b3⟩ := removeIter_grid (addAgain _ .absent) (_, none) ⟨truth.nr, truth.nc, px2⟩ law.congr
    (fun x hx => by
      obtain ⟨y, y1, y2, y3, y4⟩ := C55_parallel x (by rw [hx.1]; exact hnr) _ _ _ _ _ _ _ _ Hp
      rw [hx.1, hx.2] at y4
      exact ⟨y, addAgain_parallel Hp x y y1, ⟨y2.trans hx.1, y3.trans hx.2⟩, y4⟩) n
  have e : out2 = out3 := congrArg Prod.fst (Except.ok.inj (o1.symm.trans b1))
  subst e
  refine ⟨out, a1, a2, le_trans (le_of_eq ?_) o3⟩
  refine dist_congr (a2.1.trans b2.1.symm) (a2.2.trans b2.2.symm) (fun r hr c hc => ?_) fun _ _ _ _ => rfl
  rw [a2.1] at hr
  rw [a2.2] at hc
  have s1 := (law.remove pT px room n).2 r hr c hc
  simp only [one_mul] at s1
  exact (a3 r hr c hc).trans (s1.trans ((removeSeq_congr law.congr same n r hr c hc).trans (b3 r hr c hc).symm))

/-- **C98**: below saturation nothing else matters, for any power: parallel clocking with two descriptions of the instrument
that have the same `density / full_well_depth^power` and the same `dwell time / release timescale` for every species gives
the same image. -/
theorem C98_same (hp : ExactObjects fp pp dp gp ip cp op par) (hp' : ExactObjects fp' pp dp' gp' ip' cp' op par')
    (np : AlikeGroups 0 pp fp dp fp' dp' gp gp') (img : Image ℝ) (hnr : 0 < img.nr)
    (T top : ℝ) (hT : trapCount gp ≤ T ∧ trapCount gp' ≤ T) (htop : 0 < top) (hfull : top ≤ fp ∧ top ≤ fp')
    (hroom : ∀ r < img.nr, ∀ c < img.nc, max 0 (img.px r c) + ((img.nr + op : ℕ) + 1) * T ≤ top) :
    ∃ a b roes roes', addCtiPy img par .all .absent .all none = .ok (a, roes) ∧
      addCtiPy img par' .all .absent .all none = .ok (b, roes') ∧ a.SameShape img ∧ a.Same b := by
  have near := np.adapted hp hp' htop hp.dwell
  have eq : (adapted top fp pp dp dp gp).map Ref.ofTraps = (adapted top fp' pp dp dp' gp').map Ref.ofTraps := by
    have one : ∀ l l' : List Trap, List.Forall₂ (Trap.Near 0) l l' → Ref.ofTraps l = Ref.ofTraps l' := by
      intro l l' h
      have get : ∀ j (h1 : j < l.length) (h2 : j < l'.length), Trap.Near 0 l[j] l'[j] := fun j h1 h2 => h.get h1 h2
      refine traps_mk_congr h.length_eq (fun j => ?_) fun x j => ?_
      · have := (get j j.2 (h.length_eq ▸ j.2)).density
        rw [zero_mul] at this
        exact sub_eq_zero.1 (abs_eq_zero.1 (le_antisymm this (abs_nonneg _)))
      · have := (get j j.2 (h.length_eq ▸ j.2)).rate
        rw [zero_mul] at this
        have e := sub_eq_zero.1 (abs_eq_zero.1 (le_antisymm this (abs_nonneg _)))
        simp only [Fin.getElem_fin, Fin.val_cast]
        rw [div_eq_mul_one_div, e, ← div_eq_mul_one_div]
    generalize adapted top fp pp dp dp gp = u at near
    generalize adapted top fp' pp dp dp' gp' = v at near
    induction near with
    | nil => rfl
    | cons h _ ih => rw [List.map_cons, List.map_cons, one _ _ h, ih]
  set B := top - ((img.nr + op : ℕ) + 1) * T with hB
  have hx : ∀ r < img.nr, ∀ c < img.nc, max 0 (img.px r c) ≤ B := fun r hr c hc => by linarith [hroom r hr c hc]
  obtain ⟨law, -⟩ := parallel_adapted hp htop hfull.1 hp.dwell img.nr img.nc B T hT.1 (by linarith)
  obtain ⟨law', -⟩ := parallel_adapted hp' htop hfull.2 hp.dwell img.nr img.nc B T hT.2 (by linarith)
  obtain ⟨a, g1, g2, g3, g4⟩ := C55_parallel img hnr _ _ _ _ _ _ _ _ hp
  obtain ⟨b, k1, k2, k3, k4⟩ := C55_parallel img hnr _ _ _ _ _ _ _ _ hp'
  refine ⟨a, b, _, _, g1, k1, ⟨g2, g3⟩, g2.trans k2.symm, g3.trans k3.symm, fun r hr c hc => ?_⟩
  rw [g2] at hr
  rw [g3] at hc
  have s1 := law.scale img.px hx r hr c hc
  have s2 := law'.scale img.px hx r hr c hc
  simp only [one_mul] at s1 s2
  rw [g4 r hr c hc, k4 r hr c hc, s1, s2, eq]

end main

/-! ### where it fails -/

/-- `ρ` traps per pixel in a linear well of `full` electrons. -/
def exWell (full ρ : ℚ) : Direction ℚ :=
  ⟨⟨[1], fun _ n => if n ≤ 0 then 0 else if full ≤ n then 1 else n / full⟩, exRoe, [⟨1, fun _ => ρ, .instant fun _ _ => 1 / 2⟩],
    0, 0⟩

/-- The condition on the pixels is needed: a cloud of 300 electrons fills wells of 100 and of 200 electrons, and twice as many
traps take twice as many electrons. Of 50 electrons they take the same number. -/
theorem C98_saturated_false :
    (addCti (exImg 1 1 [[50]]) (some (exWell 100 10)) 0 .all none .all none).map (fun x => x.1.px 0 0) = .ok 45 ∧
    (addCti (exImg 1 1 [[50]]) (some (exWell 200 20)) 0 .all none .all none).map (fun x => x.1.px 0 0) = .ok 45 ∧
    (addCti (exImg 1 1 [[300]]) (some (exWell 100 10)) 0 .all none .all none).map (fun x => x.1.px 0 0) = .ok 290 ∧
    (addCti (exImg 1 1 [[300]]) (some (exWell 200 20)) 0 .all none .all none).map (fun x => x.1.px 0 0) = .ok 280 := by
  refine ⟨?_, ?_, ?_, ?_⟩ <;> decide +kernel

/-! ### examples -/

/-- Two rows of 1000 electrons, one trap per pixel in linear wells; full well depth and dwell time assumed to be one per cent
less than they are. After two iterations one part in a thousand of the charge is misplaced at most. -/
example (c c' : CCD) (d d' : PyDirection) (h : ExactObjects 100000 1 1 [[.instant 1 5 false]] false c 0 d)
    (h' : ExactObjects 101000 1 1.01 [[.instant 1 5 false]] false c' 0 d') :
    ∃ img roes, addCtiPy ⟨2, 1, fun _ _ => 1000⟩ d' .all d' .all none = .ok (img, roes) ∧
      ∃ out, removeCtiPy img 2 d .all d .all none = .ok (out, d.roe, d.roe) ∧
        out.dist ⟨2, 1, fun _ _ => 1000⟩ ≤ 0.001 * 2000 := by
  have total : (⟨2, 1, fun _ _ => 1000⟩ : Image ℝ).total = 2000 := by norm_num [Image.total, Finset.sum_range_succ]
  have alike : AlikeGroups (1 / 100) 1 100000 1 101000 1.01 [[.instant 1 5 false]] [[.instant 1 5 false]] := by
    refine .cons (.cons ⟨?_, ?_⟩ .nil) .nil
    · simp only [Trap.density, Real.rpow_one]
      rw [abs_le]
      constructor <;> norm_num
    · simp only [Trap.releaseTimescale]
      rw [abs_le]
      constructor <;> norm_num
  obtain ⟨img, roes, g1, g2⟩ := C98_remove_cti h h h' h' (1 / 100) (by norm_num) (by norm_num) alike alike le_rfl le_rfl
    ⟨2, 1, fun _ _ => 1000⟩ (by norm_num) (by norm_num) (1 / 1000) (1 / 1000) ((1000 / 999) ^ 3 - 1)
    (by norm_num [trapCount, Trap.density]) (by norm_num [trapCount, Trap.density]) (by norm_num [trapCount, Trap.density])
    (by norm_num [trapCount, Trap.density]) (by norm_num) (by norm_num) (by norm_num) (by norm_num) (by rw [total]; norm_num)
    (fun _ _ _ _ => by rw [total]; norm_num) 1 1 100000 (by norm_num [trapCount, Trap.density])
    (by norm_num [trapCount, Trap.density]) (by norm_num) (by norm_num) (fun _ _ _ _ => by norm_num)
  obtain ⟨out, o1, -, o2⟩ := g2 2
  refine ⟨img, roes, g1, out, o1, o2.trans ?_⟩
  rw [total]
  norm_num

/-- Square-root wells: a well of four times the depth with twice the traps, all clocks half as fast. -/
example (c c' : CCD) (d d' : PyDirection) (h : ExactObjects 1000 (1 / 2) 1 [[.instant 2 5 false]] false c 0 d)
    (h' : ExactObjects 4000 (1 / 2) 2 [[.instant 4 10 false]] false c' 0 d') :
    ∃ a b roes roes', addCtiPy ⟨20, 3, fun _ _ => 400⟩ d .all .absent .all none = .ok (a, roes) ∧
      addCtiPy ⟨20, 3, fun _ _ => 400⟩ d' .all .absent .all none = .ok (b, roes') ∧ a.Same b := by
  have e : (4000 : ℝ) ^ (1 / 2 : ℝ) = 2 * 1000 ^ (1 / 2 : ℝ) := by
    rw [show (4000 : ℝ) = 4 * 1000 by norm_num, Real.mul_rpow (by norm_num) (by norm_num),
      show (4 : ℝ) = 2 ^ (2 : ℝ) by norm_num, ← Real.rpow_mul (by norm_num)]
    norm_num
  have alike : AlikeGroups 0 (1 / 2) 1000 1 4000 2 [[.instant 2 5 false]] [[.instant 4 10 false]] := by
    refine .cons (.cons ⟨?_, ?_⟩ .nil) .nil
    · simp only [Trap.density, e]
      have : (0 : ℝ) < 1000 ^ (1 / 2 : ℝ) := Real.rpow_pos_of_pos (by norm_num) _
      rw [show (4 : ℝ) / (2 * 1000 ^ (1 / 2 : ℝ)) = 2 / 1000 ^ (1 / 2 : ℝ) by field_simp; norm_num]
      simp
    · simp only [Trap.releaseTimescale]
      norm_num
  obtain ⟨a, b, r, r', g1, g2, -, g3⟩ := C98_same h h' alike (⟨20, 3, fun _ _ => 400⟩ : Image ℝ) (by norm_num) 4 1000
    (by norm_num [trapCount, Trap.density]) (by norm_num) (by norm_num) (fun _ _ _ _ => by norm_num)
  exact ⟨a, b, r, r', g1, g2, g3⟩

end Arctic
