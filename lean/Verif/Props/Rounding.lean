import Verif.Model.PairwiseSum
import Verif.Lemmas.FloatCapture
import Verif.Props.Float

/-!
# C79: what rounding does to the watermarks

The arithmetic is IEEE double precision (`Model/Binary64.lean`), sums from left to right.
-/

set_option linter.unusedSectionVars false
set_option linter.unusedVariables false

namespace Arctic

variable {s : ℕ}

/-- `x` is a finite double with the value `q`. -/
def IsDouble (x : B64) (q : ℚ) : Prop := B64.key x = some (0, q)

/-- The array after `t` transfers with instant capture, starting from `n` empty watermarks. Everything may differ from
transfer to transfer: the pixel, the dwell time (through `ops`, which is one of those allowed), and the well filling. The
cloud is a double between zero and one, and zero if there are no electrons. -/
inductive AfterTransfers (allowed : ICOps B64 s → Prop) (n : ℕ) : ℕ → WM B64 s → Prop
  | empty : AfterTransfers allowed n 0 (List.replicate n ⟨B64.zero, fun _ => B64.zero⟩)
  | transfer {t : ℕ} {wm wm' : WM B64 s} {ops : ICOps B64 s} {fill : B64 → B64} {pixel net : B64} {x : ℚ}
      (before : AfterTransfers allowed n t wm) (class_ : allowed ops)
      (cloud : IsDouble (fill (B64.add pixel (Fp.icRelease dblArith ops wm).1)) x)
      (low : 0 ≤ x) (high : x ≤ 1)
      (none : 0 < x → B64.lt B64.zero (B64.add pixel (Fp.icRelease dblArith ops wm).1) = true)
      (run : Fp.icStep dblArith ops fill pixel wm = .ok (net, wm')) :
      AfterTransfers allowed n (t + 1) wm'

/-- Traps of `TrapManagerInstantCapture`, with any probabilities of release. -/
def Fractions (dens : Fin s → B64) (ops : ICOps B64 s) : Prop := ∃ p, ops = Fp.instantOps dblArith dens p

/-- Traps of `TrapManagerTrackTime`, with any function from elapsed times to fill fractions and positive dwell times. -/
def ElapsedTimes (dens : Fin s → B64) (conv : Fin s → B64 → B64) (ops : ICOps B64 s) : Prop :=
  ∃ dwell d, IsDouble dwell d ∧ 0 < d ∧ ops = Fp.trackTimeOps dblArith dens conv dwell

/-- A block of at most `t` positive volumes, then zeros; all volumes are finite, and their exact sum is at most `total`. -/
structure IsBlock (t : ℕ) (total : ℚ) (wm : WM B64 s) : Prop where
  block : ∃ m ≤ t, (∀ i r, wm[i]? = some r → i < m → ∃ q, IsDouble r.vol q ∧ 0 < q) ∧
    ∀ i r, wm[i]? = some r → m ≤ i → IsDouble r.vol 0
  sum : (wm.map fun r => B64.val r.vol).sum ≤ total

theorem Fp.Good.cases {x : B64} (h : Fp.Good x) : x = .inf false ∨ x = .negZero ∨ ∃ q, 0 ≤ q ∧ ∃ hq, x = .fin q hq := by
  cases x with
  | nan => cases h
  | inf n => cases n with
    | true => cases h
    | false => exact Or.inl rfl
  | negZero => exact Or.inr (Or.inl rfl)
  | fin q hq =>
    refine Or.inr (Or.inr ⟨q, ?_, hq, rfl⟩)
    have : B64.le B64.zero (.fin q hq) = true := h
    rw [Fp.val_le B64.val_zero (show B64.Val (.fin q hq) q from rfl)] at this
    simpa using this

theorem Fp.Good.add_pos {x y : B64} (h : Fp.Good x) (hy : Fp.Pos y) : Fp.Pos (B64.add x y) := by
  rcases h.cases with rfl | rfl | ⟨q, q0, hq, rfl⟩ <;> rcases hy.cases with rfl | ⟨p, p0, hp, rfl⟩
  · rfl
  · rfl
  · rfl
  · exact hy
  · rfl
  · change Fp.Pos (B64.pack (q + p))
    have := B64.round_mono_rep' hp (by linarith : p ≤ q + p)
    exact Fp.pos_pack (by linarith)

theorem Fp.Pos.good {x : B64} (h : Fp.Pos x) : Fp.Good x := by
  unfold Fp.Good B64.le
  rw [show B64.lt B64.zero x = true from h]; rfl

/-- What is used of a class. -/
structure Fp.Allowed (fl : B64) (allowed : ICOps B64 s → Prop) : Prop where
  ops : ∀ ops, allowed ops → Fp.OpsOk ops ∧ ops.filled = fl
  one : fl = B64.one ∨ (fl = B64.zero ∧ ∀ ops, allowed ops → ∀ a x, Fp.Good x → Fp.Pos (ops.release a x))

theorem Fp.allowed_lifetimes (dens : Fin s → B64) : Fp.Allowed B64.one (Fractions dens) := by
  refine ⟨?_, Or.inl rfl⟩
  rintro _ ⟨p, rfl⟩
  exact ⟨Or.inl ⟨rfl, fun _ _ _ => rfl⟩, rfl⟩

theorem Fp.allowed_times (dens : Fin s → B64) (conv : Fin s → B64 → B64) : Fp.Allowed B64.zero (ElapsedTimes dens conv) := by
  refine ⟨?_, Or.inr ⟨rfl, ?_⟩⟩
  · rintro _ ⟨w, d, -, -, rfl⟩
    exact ⟨Or.inr ⟨rfl, fun _ _ _ => ⟨.typeError, rfl⟩⟩, rfl⟩
  · rintro _ ⟨w, d, h, hd, rfl⟩ a x hx
    exact hx.add_pos (Fp.pos_of_val h hd)

theorem formed_of_transfers [NeZero s] {allowed : ICOps B64 s → Prop} {fl : B64} (ha : Fp.Allowed fl allowed) {n t : ℕ}
    {wm : WM B64 s} (h : AfterTransfers allowed n t wm) :
    t < n → t ≤ 2 ^ 22 → wm.length = n ∧ (∃ m ≤ t, Fp.Formed m wm) ∧
      Fp.VolSized (1 + 3 * t ^ 2 * Fp.err) (wm.map Row.vol) ∧ Fp.Fl fl wm := by
  have hep := Fp.err_pos
  induction h with
  | empty =>
    intro _ _
    refine ⟨List.length_replicate, ⟨0, le_rfl, ⟨Nat.zero_le _, ?_, ?_, ?_⟩⟩, ⟨?_, ?_⟩, ?_⟩
    · intro r hr; simp at hr
    · intro r hr; rw [List.eq_of_mem_replicate (List.mem_of_mem_drop hr)]; exact B64.val_zero
    · intro r hr; rw [List.eq_of_mem_replicate (List.mem_of_mem_drop hr)]; exact Fp.nilRow_zeroRow
    · intro v hv
      rw [List.map_replicate] at hv
      rw [List.eq_of_mem_replicate hv]; exact ⟨0, B64.val_zero⟩
    · rw [List.map_replicate, Fp.vsum_replicate_zero]
      norm_num
    · rcases ha.one with e | ⟨e, -⟩
      · exact Or.inl e
      · refine Or.inr ⟨e, fun r hr a => ?_⟩
        rw [List.eq_of_mem_replicate hr]; exact Fp.good_zero
  | @transfer t wm wm' ops fill pixel net x before class_ cloud low high none run ih =>
    intro htn ht
    obtain ⟨hl, ⟨m, hm, hf⟩, hs, hg⟩ := ih (by omega) (by omega)
    obtain ⟨hops, hfl⟩ := ha.ops ops class_
    have htq : (t : ℚ) + 1 ≤ 2 ^ 22 := by exact_mod_cast ht
    have t0 : (0 : ℚ) ≤ t := Nat.cast_nonneg _
    have e3 : Fp.err = 1 / 2 ^ 48 := by unfold Fp.err; norm_num
    have hmq : ((m + 1 : ℕ) : ℚ) ≤ t + 1 := by push_cast; exact_mod_cast (by omega : m + 1 ≤ t + 1)
    have hsq : (t : ℚ) ^ 2 ≤ (2 ^ 22) ^ 2 := pow_le_pow_left₀ t0 (by linarith) 2
    -- the fills after the release
    have hrow : ∀ (i : ℕ) (r : Row B64 s), (Fp.icRelease Fp.D ops wm).2[i]? = some r → ∃ q, wm[i]? = some q ∧
        ∀ a, r.fill a = if i < m then ops.release a (q.fill a) else q.fill a := by
      intro i r hr
      change (Fp.mapFills 0 (Fp.maxWatermarkIndex Fp.D wm + 1).toNat ops.release wm)[i]? = some r at hr
      rw [hf.maxIndex (by omega), show ((m : ℤ) - 1 + 1).toNat = m by omega] at hr
      unfold Fp.mapFills at hr
      rw [List.getElem?_mapIdx] at hr
      cases hq : wm[i]? with
      | none => rw [hq] at hr; cases hr
      | some q =>
        rw [hq, Option.map_some] at hr
        have hr := Option.some.inj hr
        refine ⟨q, rfl, fun a => ?_⟩
        rw [← hr]
        by_cases him : i < m
        · rw [if_pos ⟨Nat.zero_le _, him⟩, if_pos him]
        · rw [if_neg (fun h => him h.2), if_neg him]
    have hg' : Fp.Fl ops.filled (Fp.icRelease Fp.D ops wm).2 := by
      rw [hfl]
      rcases ha.one with e | ⟨e, hrel⟩
      · exact Or.inl e
      · rcases hg with e1 | ⟨-, hgood⟩
        · exact Or.inl e1
        · refine Or.inr ⟨e, fun r hr a => ?_⟩
          obtain ⟨i, hi⟩ := List.mem_iff_getElem?.1 hr
          obtain ⟨q, hq, he⟩ := hrow i r hi
          have hgq := hgood q (List.mem_iff_getElem?.2 ⟨i, hq⟩) a
          rw [he a]
          split
          · exact (hrel ops class_ a _ hgq).good
          · exact hgq
    have hU : ops.filled = B64.one ∨ ∀ r ∈ (Fp.icRelease Fp.D ops wm).2.take m, ∀ a,
        B64.eq (r.fill a) ops.filled = false := by
      rw [hfl]
      rcases ha.one with e | ⟨e, hrel⟩
      · exact Or.inl e
      · rcases hg with e1 | ⟨-, hgood⟩
        · exact Or.inl e1
        · refine Or.inr fun r hr a => ?_
          obtain ⟨i, hi⟩ := List.mem_iff_getElem?.1 hr
          rw [List.getElem?_take] at hi
          split at hi
          · rename_i him
            obtain ⟨q, hq, he⟩ := hrow i r hi
            rw [he a, if_pos him, e]
            exact Fp.pos_ne_zero (hrel ops class_ a _ (hgood q (List.mem_iff_getElem?.2 ⟨i, hq⟩) a))
          · cases hi
    have hstep := Fp.icStep_formed hops hg' hU hf (by omega) hs
      (by nlinarith [mul_nonneg (pow_nonneg t0 2) hep.le])
      (by
        have := mul_le_mul_of_nonneg_right hsq hep.le
        rw [e3] at this ⊢
        norm_num at this ⊢
        linarith)
      (by
        have := mul_le_mul_of_nonneg_right (hmq.trans htq) hep.le
        rw [e3] at this ⊢
        norm_num at this ⊢
        linarith) cloud low high none
    rw [show Fp.icStep Fp.D ops fill pixel wm = _ from run] at hstep
    obtain ⟨h1, ⟨m', hm', hf'⟩, h3, h4⟩ := hstep
    refine ⟨h1.trans hl, ⟨m', by omega, hf'⟩, h3.mono ?_, hfl ▸ h4⟩
    push_cast
    push_cast at hmq
    nlinarith [mul_le_mul_of_nonneg_right hmq hep.le, mul_nonneg t0 hep.le]

theorem isBlock_of_transfers (hs : 0 < s) {allowed : ICOps B64 s → Prop} {fl : B64} (ha : Fp.Allowed fl allowed) (n t : ℕ)
    (wm : WM B64 s) (h : AfterTransfers allowed n t wm)
    (hn : t < n) (ht : t ≤ 2 ^ 22) : wm.length = n ∧ IsBlock t (1 + 3 * t ^ 2 / 2 ^ 48) wm := by
  have : NeZero s := ⟨hs.ne'⟩
  obtain ⟨h1, ⟨m, hm, hf⟩, h3, -⟩ := formed_of_transfers ha h hn ht
  refine ⟨h1, ⟨m, hm, ?_, ?_⟩, ?_⟩
  · intro i r hr hi
    obtain ⟨q, hq⟩ := h3.1 r.vol (List.mem_map.2 ⟨r, List.mem_iff_getElem?.2 ⟨i, hr⟩, rfl⟩)
    exact ⟨q, hq, (hf.pos r (Fp.mem_take_of hr hi)).val hq⟩
  · intro i r hr hi
    exact hf.zero r (Fp.mem_drop_of hr hi)
  · have := h3.2
    unfold Fp.vsum at this
    rw [List.map_map] at this
    have e3 : Fp.err = 1 / 2 ^ 48 := by unfold Fp.err; norm_num
    rw [e3] at this
    calc _ ≤ _ := this
      _ = _ := by ring

/-- Instant capture keeps the array in order whatever is rounded: after `t` transfers, up to 2^22 of them and as many as
there are rows, the volumes are a block of at most `t` positive numbers followed by zeros, and the volume in use exceeds
that of the largest possible cloud by at most `3 t² / 2^48`. -/
theorem C79_instant (hs : 0 < s) (dens : Fin s → B64) (n t : ℕ) (wm : WM B64 s)
    (h : AfterTransfers (Fractions dens) n t wm) (hn : t < n) (ht : t ≤ 2 ^ 22) :
    wm.length = n ∧ IsBlock t (1 + 3 * t ^ 2 / 2 ^ 48) wm :=
  isBlock_of_transfers hs (Fp.allowed_lifetimes dens) n t wm h hn ht

/-- The same for the class that stores elapsed times. -/
theorem C79_track_time (hs : 0 < s) (dens : Fin s → B64) (conv : Fin s → B64 → B64) (n t : ℕ) (wm : WM B64 s)
    (h : AfterTransfers (ElapsedTimes dens conv) n t wm) (hn : t < n) (ht : t ≤ 2 ^ 22) :
    wm.length = n ∧ IsBlock t (1 + 3 * t ^ 2 / 2 ^ 48) wm :=
  isBlock_of_transfers hs (Fp.allowed_times dens conv) n t wm h hn ht

/-- The transfers of a column, or nothing if a cloud is not as asked for. -/
def exTransfers (ops : ICOps B64 1) : List B64 → WM B64 1 → Option (WM B64 1)
  | [], wm => some wm
  | pixel :: l, wm =>
    let n := B64.add pixel (Fp.icRelease dblArith ops wm).1
    match B64.key (exDblFill n), Fp.icStep dblArith ops exDblFill pixel wm with
    | some (0, q), .ok (_, wm') =>
      if 0 ≤ q ∧ q ≤ 1 ∧ (0 < q → B64.lt B64.zero n = true) then exTransfers ops l wm' else none
    | _, _ => none

theorem exTransfers_after {allowed : ICOps B64 1 → Prop} {ops : ICOps B64 1} (ha : allowed ops) (n : ℕ) (l : List B64) :
    ∀ (t : ℕ) (wm wm' : WM B64 1), AfterTransfers allowed n t wm →
      exTransfers ops l wm = some wm' → AfterTransfers allowed n (t + l.length) wm' := by
  induction l with
  | nil =>
    intro t wm wm' h e
    rw [← Option.some.inj e]
    exact h
  | cons pixel l ih =>
    intro t wm wm' h e
    unfold exTransfers at e
    simp only at e
    split at e
    · rename_i q net w hk hr
      split at e
      · rename_i hc
        have := ih (t + 1) w wm' (h.transfer ha hk hc.1 hc.2.1 hc.2.2 hr) e
        rw [List.length_cons]
        rwa [show t + (l.length + 1) = t + 1 + l.length by omega]
      · cases e
    · cases e

theorem exTransfers_volumes {allowed : ICOps B64 1 → Prop} {ops : ICOps B64 1} (ha : allowed ops) (l : List B64) {v : List Bool}
    (h : (exTransfers ops l (List.replicate 5 ⟨B64.zero, fun _ => B64.zero⟩)).map
      (fun wm => wm.map fun r => B64.lt B64.zero r.vol) = some v) :
    ∃ wm : WM B64 1, AfterTransfers allowed 5 l.length wm ∧ wm.map (fun r => B64.lt B64.zero r.vol) = v := by
  cases hx : exTransfers ops l (List.replicate 5 ⟨B64.zero, fun _ => B64.zero⟩) with
  | none => rw [hx] at h; cases h
  | some wm =>
    rw [hx] at h
    have := exTransfers_after ha 5 l 0 _ wm .empty hx
    rw [Nat.zero_add] at this
    exact ⟨wm, this, Option.some.inj h⟩

/-- Four transfers in which half of the electrons are released, after which four volumes are in use. -/
example : ∃ wm : WM B64 1, AfterTransfers (Fractions fun _ => dbl 10) 5 4 wm ∧
    wm.map (fun r => B64.lt B64.zero r.vol) = [true, true, true, true, false] :=
  exTransfers_volumes (ops := Fp.instantOps dblArith (fun _ => dbl 10) fun _ => dbl (1 / 2)) ⟨_, rfl⟩
    [dbl 90, dbl 20, dbl (3 / 10), dbl (1 / 10)] (by decide +kernel)

/-- A fill fraction that falls from one to zero in ten units of time. -/
def exConv (t : B64) : B64 := if B64.lt (dbl 10) t then dbl 0 else B64.sub B64.one (B64.div t (dbl 10))

/-- Four transfers for the class with elapsed times, after which four volumes are in use. -/
example : ∃ wm : WM B64 1, AfterTransfers (ElapsedTimes (fun _ => dbl 10) fun _ => exConv) 5 4 wm ∧
    wm.map (fun r => B64.lt B64.zero r.vol) = [true, true, true, true, false] :=
  exTransfers_volumes (ops := Fp.trackTimeOps dblArith (fun _ => dbl 10) (fun _ => exConv) (dbl 1))
    ⟨dbl 1, 1, by unfold IsDouble; decide +kernel, by norm_num, rfl⟩
    [dbl 90, dbl 50, dbl 30, dbl 20] (by decide +kernel)

/-! ### Elapsed times: the order of addition matters -/

/-- The volumes after some transfers of traps of `TrapManagerTrackTime`, with one species of density 2 and ten rows. -/
def exTimesArray (sum : List B64 → B64) (l : List ℚ) : Except Err (List B64) :=
  (l.foldlM (fun w n => (Fp.icStep (B64.arith sum) (Fp.trackTimeOps (B64.arith sum) (fun _ => dbl 2) (fun _ => exConv) (dbl 1))
    exDblFill (dbl n) w).map Prod.snd) (List.replicate 10 (Fp.zeroRow dblArith 1))).map fun w => w.map Row.vol

/-- `C79_track_time` needs the sums from left to right. The cloud is compared with the running total of the volumes, and a
cloud above it gets a watermark of its own, whose volume is the cloud less `np.sum` of the volumes. From eight numbers on
`np.sum` adds in another order. For the pixels 91, 85, 68, 40, 21, 12, 4 and 90.818 the cloud is above the running total and
below `np.sum`, so the new volume is negative. With instant capture of fill fractions that row would be merged with those
below. Here it stays, because the rows that were never used have the same elapsed time of zero as filled ones. -/
theorem C79_track_time_order_false :
    (∀ l : List B64, l.length ≤ 128 → B64.sumPairwise l = B64.sumBlock l) ∧
    (∃ l, exTimesArray B64.sumBlock [91, 85, 68, 40, 21, 12, 4, 90818 / 1000] = .ok l ∧
      l.map (fun v => (B64.lt v B64.zero, B64.lt B64.zero v)) =
        List.replicate 7 (false, true) ++ [(true, false), (false, false), (false, false)]) ∧
    ∃ l, exTimesArray B64.sumLeft [91, 85, 68, 40, 21, 12, 4, 90818 / 1000] = .ok l ∧
      l.map (fun v => (B64.lt v B64.zero, B64.lt B64.zero v)) = List.replicate 8 (false, true) ++ [(false, false), (false, false)] := by
  have of {F : Type} {x : Except Err (List F)} {P : List F → Prop} [∀ l, Decidable (P l)]
      (h : (match x with | .ok l => decide (P l) | .error _ => false) = true) : ∃ l, x = .ok l ∧ P l := by
    cases x with
    | ok l => exact ⟨l, rfl, of_decide_eq_true h⟩
    | error e => cases h
  refine ⟨fun l hl => ?_, of (by decide +kernel), of (by decide +kernel)⟩
  unfold B64.sumPairwise
  rw [dif_pos hl]

/-! ### Slow capture: the split -/

/-- A split in double precision, at a cloud strictly between two running totals: the part above the cloud is positive, and
so is the running total up to the cloud. Nothing is said about the part below the cloud itself. -/
theorem C79_split (pre rest : WM B64 s) (r : Row B64 s) (cloud : B64) (t c x : ℚ) (hrest : rest ≠ [])
    (hpre : ∀ q ∈ pre, B64.lt B64.zero q.vol = true) (hr : B64.lt B64.zero r.vol = true)
    (ht : IsDouble ((pre.map Row.vol).foldl B64.add B64.zero) t)
    (hc : IsDouble (((pre.map Row.vol) ++ [r.vol]).foldl B64.add B64.zero) c) (hcb : c ≤ 2 ^ 900)
    (hx : IsDouble cloud x) (h0 : 0 < x) (h1 : t < x) (h2 : x < c) :
    ∃ below above, Fp.cyUpdateVolumes dblArith (pre ++ r :: rest) cloud pre.length =
        .ok (pre ++ below :: above :: rest.dropLast) ∧ below.fill = r.fill ∧ above.fill = r.fill ∧
      B64.lt B64.zero above.vol = true ∧
      B64.lt B64.zero (((pre.map Row.vol) ++ [below.vol]).foldl B64.add B64.zero) = true := by
  obtain ⟨u1, u2, -⟩ := Fp.split_values (pre := pre.map Row.vol) (v := r.vol) (cloud := cloud) (t := t) (c := c) (x := x)
    (by
      intro u hu
      obtain ⟨q, hq, rfl⟩ := List.mem_map.1 hu
      exact hpre q hq) hr ht hc (by unfold Fp.big; linarith) hcb hx h0 h1 h2
  exact ⟨_, _, Fp.cyUpdateVolumes_list (A := dblArith) pre rest r cloud hrest, rfl, rfl, u1, u2⟩

/-- The two parts, for volumes 0.02 and 0.03 and a cloud of 0.04. -/
example : (Fp.cyUpdateVolumes (s := 1) dblArith [⟨dbl (2 / 100), fun _ => dbl 0⟩, ⟨dbl (3 / 100), fun _ => dbl 0⟩,
      ⟨dbl 0, fun _ => dbl 0⟩] (dbl (4 / 100)) 1).map (fun w => w.map fun r => r.vol) =
    .ok [dbl (2 / 100), dbl (2882303761517117 / 144115188075855872), dbl (1441151880758559 / 144115188075855872)] := by
  decide +kernel

/-! ### Slow capture: the array is not kept in order -/

/-- One species with density 8 and probabilities 45/64, 49/64, 1/2: those of a release time `τ`, a capture time `τ / 3` and a
dwell time `τ log 2`. One phase, express 1, linear well filling with full well 100, one column of pixels. -/
def exSlowRun {F : Type} (A : Arith F) (num : ℚ → F) (l : List ℚ) : Except Err (List F) :=
  let n := l.length
  let img : Image F := ⟨n, 1, fun r _ => num (l.getD r 0)⟩
  let cfg : ClockCfg F :=
    { expr := ⟨1, n, fun _ j => num (j + 1)⟩, monitor := ⟨1, n, fun _ _ => true⟩, saveMat := ⟨1, n, fun _ _ => false⟩,
      clockSeq := [[⟨true, 0, [(0, A.one)]⟩]], dwell := [A.one], steps := [0], phases := [0],
      rowWindow := List.range n, emptyBetween := true }
  let ccd : CcdView F := ⟨[A.one], fun _ => Fp.wellFill A (fun x _ => x) A.zero (num 100) A.one⟩
  let groups : List (Group F) :=
    [⟨1, fun _ => num 8, .slow fun _ => ⟨fun _ => num (45 / 64), fun _ => num (49 / 64), fun _ => num (1 / 2)⟩⟩]
  (Fp.clockCharge A img ccd groups cfg 0 n [0]).map fun i => (List.range i.nr).map fun r => i.px r 0

/-- The probabilities are those of the times named. -/
example (c e t : ℝ) (he : 0 < e) (hc : c = 3 * e) (ht : Real.exp (-(e * t)) = 1 / 2) :
    c / (c + e) * (1 - Real.exp (-((c + e) * t))) = 45 / 64 ∧
      c / (c + e) + (1 - c / (c + e)) * Real.exp (-((c + e) * t)) = 49 / 64 := by
  have h4 : Real.exp (-((c + e) * t)) = (1 / 2) ^ 4 := by
    rw [← ht, ← Real.exp_nat_mul]
    congr 1
    rw [hc]
    push_cast
    ring
  have h3 : c / (c + e) = 3 / 4 := by
    rw [hc]
    field_simp
    ring
  rw [h4, h3]
  norm_num

/-- With slow capture rounding can change the result by more than the pixel itself. The column 98, 2, 3, 3, 20 becomes in
exact arithmetic one that ends with less than 18 electrons and has less than 131 in all. In double precision it ends with
more than 45 and has over 150 in all. With 1/1024 electron less in the fourth pixel double precision, too, gives less than
18 and less than 131. -/
theorem C79_slow_false :
    (∃ l, exSlowRun (Arith.exact ℚ) id [98, 2, 3, 3, 20] = .ok l ∧ l.length = 5 ∧ l.getD 4 0 < 18 ∧ l.sum < 131) ∧
    (∃ l, exSlowRun dblArith dbl [98, 2, 3, 3, 20] = .ok l ∧ l.length = 5 ∧ 45 < (l.getD 4 B64.zero).val ∧
      150 < (l.map B64.val).sum) ∧
    ∃ l, exSlowRun dblArith dbl [98, 2, 3, 3 - 1 / 1024, 20] = .ok l ∧ l.length = 5 ∧ (l.getD 4 B64.zero).val < 18 ∧
      (l.map B64.val).sum < 131 := by
  have of {F : Type} {x : Except Err (List F)} {P : List F → Prop} [∀ l, Decidable (P l)]
      (h : (match x with | .ok l => decide (P l) | .error _ => false) = true) : ∃ l, x = .ok l ∧ P l := by
    cases x with
    | ok l => exact ⟨l, rfl, of_decide_eq_true h⟩
    | error e => cases h
  exact ⟨of (by decide +kernel), of (by decide +kernel), of (by decide +kernel)⟩

/-- The array of those transfers. -/
def exSlowArray (l : List ℚ) : Except Err (List B64) :=
  (l.foldlM (fun w n => (Fp.slowStep dblArith (fun _ => dbl 8)
    ⟨fun _ => dbl (45 / 64), fun _ => dbl (49 / 64), fun _ => dbl (1 / 2)⟩ exDblFill (dbl n) w).map Prod.snd)
    (List.replicate 11 (Fp.zeroRow dblArith 1))).map fun w => w.map Row.vol

/-- The cause. The second pixel with three electrons splits a watermark into a part of volume zero and the rest, so a zero
stands in front of volumes in use, one of them 0.93, and these are taken for unused. The next pixel then writes a negative
volume among them. -/
theorem C79_slow_array_false :
    (∃ l, exSlowArray [98, 2, 3, 3] = .ok l ∧
      l.map (fun v => (B64.eq v B64.zero, B64.lt B64.zero v)) =
        [(false, true), (false, true), (true, false), (false, true), (false, true), (false, true), (false, true),
          (true, false), (true, false), (true, false), (true, false)] ∧ 93 / 100 < (l.getD 6 B64.zero).val) ∧
    ∃ l, exSlowArray [98, 2, 3, 3, 20] = .ok l ∧ (l.getD 6 B64.zero).val < -3 / 4 := by
  have of {F : Type} {x : Except Err (List F)} {P : List F → Prop} [∀ l, Decidable (P l)]
      (h : (match x with | .ok l => decide (P l) | .error _ => false) = true) : ∃ l, x = .ok l ∧ P l := by
    cases x with
    | ok l => exact ⟨l, rfl, of_decide_eq_true h⟩
    | error e => cases h
  exact ⟨of (by decide +kernel), of (by decide +kernel)⟩

end Arctic
