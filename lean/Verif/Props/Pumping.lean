import Verif.Props.Charge

/-!
# C78 — trap pumping: the phase the traps are in decides which neighbour gains
-/

set_option linter.unusedSectionVars false
set_option linter.unusedVariables false

namespace Arctic
open Finset

variable {K : Type} [Field K] [LinearOrder K] [IsStrictOrderedRing K]

/-! ### offsets of the phases -/

/-- Where a phase in the first half of a pixel releases to: the pixel itself or the next one. -/
theorem release_lower (n step ph : ℕ) (hn : 0 < n) (h : 2 * ph < n) :
    ∀ x ∈ (genPhase (K := K) n false step ph).release, x.1 = 0 ∨ x.1 = 1 := by
  intro x hx
  obtain ⟨s0, s1⟩ := stepPrime_bounds n step hn
  obtain ⟨b1, b2⟩ := capture_bounds n (stepPrime n step - ph) hn
  set c := (stepPrime n step - ph + ((n - 1) / 2 : ℕ)).fdiv n with hc
  have hc0 : 0 ≤ c := by
    by_contra hneg
    have : c * n ≤ -1 * n := by gcongr; omega
    omega
  have hc1 : c ≤ 1 := by
    by_contra hneg
    have : 2 * n ≤ c * n := by gcongr; omega
    omega
  unfold genPhase at hx
  simp only [Bool.false_eq_true, false_and, if_false, add_zero, ← hc, List.mem_map, List.mem_range] at hx
  obtain ⟨i, hi, rfl⟩ := hx
  simp only
  split at hi
  · rename_i hsplit
    unfold splitReleasePhase at hsplit
    split at hsplit
    · rename_i he
      rw [Option.some_inj] at hsplit
      have hcc : c = 0 := by
        rcases s1.eq_or_lt with hsn | hsn
        · exfalso
          have : highPhase n step = 0 := by unfold highPhase; rw [hsn]; exact Int.emod_self
          rw [this, zero_add, Int.emod_eq_of_lt (by omega) (by omega)] at hsplit
          omega
        · have : highPhase n step = stepPrime n step := Int.emod_eq_of_lt s0 hsn
          rw [this] at hsplit
          by_contra hne
          have h1 : c = 1 := by omega
          rw [h1, one_mul] at b1
          have h3 : (stepPrime n step + (n / 2 : ℕ)) % (n : ℤ) = stepPrime n step + (n / 2 : ℕ) - n := by
            rw [← Int.sub_emod_right]
            exact Int.emod_eq_of_lt (by omega) (by omega)
          rw [h3] at hsplit
          omega
      omega
    · cases hsplit
  · omega

/-- A phase in the second half releases to the pixel itself or the previous one. -/
theorem release_upper (n step ph : ℕ) (hph : ph < n) (h : n < 2 * ph) :
    ∀ x ∈ (genPhase (K := K) n false step ph).release, x.1 = 0 ∨ x.1 = -1 := by
  intro x hx
  have hn : 0 < n := by omega
  obtain ⟨s0, s1⟩ := stepPrime_bounds n step hn
  obtain ⟨b1, b2⟩ := capture_bounds n (stepPrime n step - ph) hn
  set c := (stepPrime n step - ph + ((n - 1) / 2 : ℕ)).fdiv n with hc
  have hc0 : -1 ≤ c := by
    by_contra hneg
    have : c * n ≤ -2 * n := by gcongr; omega
    omega
  have hc1 : c ≤ 0 := by
    by_contra hneg
    have : 1 * n ≤ c * n := by gcongr; omega
    omega
  unfold genPhase at hx
  simp only [Bool.false_eq_true, false_and, if_false, add_zero, ← hc, List.mem_map, List.mem_range] at hx
  obtain ⟨i, hi, rfl⟩ := hx
  simp only
  split at hi
  · rename_i hsplit
    unfold splitReleasePhase at hsplit
    split at hsplit
    · rename_i he
      rw [Option.some_inj] at hsplit
      have hcc : c = -1 := by
        rcases s1.eq_or_lt with hsn | hsn
        · exfalso
          have : highPhase n step = 0 := by unfold highPhase; rw [hsn]; exact Int.emod_self
          rw [this, zero_add, Int.emod_eq_of_lt (by omega) (by omega)] at hsplit
          omega
        · have : highPhase n step = stepPrime n step := Int.emod_eq_of_lt s0 hsn
          rw [this] at hsplit
          by_contra hne
          have h1 : c = 0 := by omega
          rw [h1, zero_mul] at b1
          rcases lt_or_ge (stepPrime n step + (n / 2 : ℕ)) (n : ℤ) with hlt | hge
          · rw [Int.emod_eq_of_lt (by omega) hlt] at hsplit
            omega
          · have h3 : (stepPrime n step + (n / 2 : ℕ)) % (n : ℤ) = stepPrime n step + (n / 2 : ℕ) - n := by
              rw [← Int.sub_emod_right]
              exact Int.emod_eq_of_lt (by omega) (by omega)
            rw [h3] at hsplit
            omega
      omega
    · cases hsplit
  · omega

/-- Every phase releases to the pixel itself or a neighbour. -/
theorem release_any (n step ph : ℕ) (hph : ph < n) :
    ∀ x ∈ (genPhase (K := K) n false step ph).release, x.1 = 0 ∨ x.1 = 1 ∨ x.1 = -1 := by
  intro x hx
  have hn : 0 < n := by omega
  rcases lt_trichotomy (2 * ph) n with h | h | h
  · rcases release_lower n step ph hn h x hx with h | h <;> simp [h]
  · obtain ⟨s0, s1⟩ := stepPrime_bounds n step hn
    obtain ⟨b1, b2⟩ := capture_bounds n (stepPrime n step - ph) hn
    set c := (stepPrime n step - ph + ((n - 1) / 2 : ℕ)).fdiv n with hc
    have hc0 : -1 ≤ c := by
      by_contra hneg
      have : c * n ≤ -2 * n := by gcongr; omega
      omega
    have hc1 : c ≤ 0 := by
      by_contra hneg
      have : 1 * n ≤ c * n := by gcongr; omega
      omega
    unfold genPhase at hx
    simp only [Bool.false_eq_true, false_and, if_false, add_zero, ← hc, List.mem_map, List.mem_range] at hx
    obtain ⟨i, hi, rfl⟩ := hx
    simp only
    split at hi <;> omega
  · rcases release_upper n step ph hph h x hx with h | h <;> simp [h]

/-- Except for the first phase, a phase of a pixel that is high holds the cloud of that pixel. -/
theorem high_release (n step ph : ℕ) (hph : ph < n) (h1 : 1 ≤ ph)
    (hh : (genPhase (K := K) n false step ph).isHigh = true) :
    (genPhase (K := K) n false step ph).release = [(0, 1)] := by
  have hn : 0 < n := by omega
  rw [C13_high_release n false step ph hn hh]
  simp only [genPhase, decide_eq_true_eq] at hh
  obtain ⟨s0, s1⟩ := stepPrime_bounds n step hn
  have hsp : stepPrime n step = ph := by
    rcases s1.eq_or_lt with hsn | hsn
    · exfalso
      have : highPhase n step = 0 := by unfold highPhase; rw [hsn]; exact Int.emod_self
      omega
    · have : highPhase n step = stepPrime n step := Int.emod_eq_of_lt s0 hsn
      omega
  unfold genPhase
  simp only [Bool.false_eq_true, false_and, if_false, add_zero, hsp, sub_self, zero_add]
  rw [Int.fdiv_eq_ediv_of_nonneg _ (by omega), Int.ediv_eq_zero_of_lt (by omega) (by omega)]

theorem genClockSequence_get {N n step ph : ℕ} {force : Bool} {x : Phase K}
    (h : ((genClockSequence N n force)[step]?.bind fun l => l[ph]?) = some x) :
    ph < n ∧ x = genPhase n force step ph := by
  unfold genClockSequence at h
  rw [List.getElem?_map] at h
  by_cases hs : step < N
  · rw [List.getElem?_range hs] at h
    simp only [Option.map_some, Option.bind_some, List.getElem?_map] at h
    by_cases hp : ph < n
    · rw [List.getElem?_range hp] at h
      exact ⟨hp, (Option.some.inj h).symm⟩
    · rw [List.getElem?_eq_none (by simpa using hp)] at h
      cases h
  · rw [List.getElem?_eq_none (by simpa using hs)] at h
    cases h

/-! ### pixels that are not touched -/

/-- All traps are in phases fulfilling `S`. -/
def TrapsIn (ccd : CcdView K) (S : ℕ → Prop) : Prop := ∀ ph < ccd.fractions.length, 0 < ccd.fractions.getD ph 0 → S ph

theorem writeAll_other {p c : ℕ} {net mult : K} (r c' : ℕ) (rel : List (ℤ × K))
    (hrel : ∀ x ∈ rel, (r : ℤ) ≠ p + x.1) : ∀ {img i : Image K}, writeAll img p c net mult rel = .ok i →
      i.px r c' = img.px r c' := by
  induction rel with
  | nil => intro img i h; unfold writeAll at h; injection h with h; rw [h]
  | cons x rel ih =>
    intro img i h
    obtain ⟨off, frac⟩ := x
    unfold writeAll at h
    obtain ⟨i1, h1, h2⟩ := bind_eq_ok h
    rw [ih (fun y hy => hrel y (List.mem_cons_of_mem _ hy)) h2]
    unfold writeBack at h1
    obtain ⟨old, h3, h4⟩ := bind_eq_ok h1
    injection h4 with h4
    obtain ⟨g1, -⟩ := read_ok h3
    have := hrel _ List.mem_cons_self
    simp only at this
    rw [← h4]
    unfold Image.set
    simp only
    rw [if_neg (by omega)]

theorem pumping_fields {dw : List K} {n : ℕ} {ef i : Bool} {ccd : CcdView K} {e o p : ℕ} {tw : Option (List ℕ)}
    {cfg : ClockCfg K} {roe' : Roe K} (h : clockCfg (.pumping dw n ef i) ccd e o [p] tw = .ok (cfg, roe')) :
    cfg.clockSeq = genClockSequence dw.length (dw.length / 2) false ∧ cfg.rowWindow = [p] ∧
      cfg.phases = positiveIndices ccd.fractions ∧ (∀ k j, j ∈ monitoredRows cfg k → j = 0 ∧ 0 < cfg.expr.e k j) ∧
      cfg.saveMat = ⟨cfg.expr.nr, cfg.expr.nc, fun i j => decide (j = 0 ∧ i + 1 < cfg.expr.nr)⟩ := by
  obtain ⟨f1, f2, f3, f4, f5, f6, f7, f8⟩ := clockCfg_fields h
  simp only [Roe.express] at f1
  obtain ⟨⟨m, mon⟩, g1, g2⟩ := bind_eq_ok f1
  injection g2 with g2
  injection g2 with g3 g4
  injection g4 with g4 _
  subst g3 g4
  unfold pumpingExpress at g1
  obtain ⟨l, g5, g6⟩ := bind_eq_ok g1
  simp only at g6
  injection g6 with g6
  injection g6 with g7 g8
  refine ⟨f3, f7, f6, ?_, ?_⟩
  · intro k j hj
    obtain ⟨q1, q2⟩ := mem_monitoredRows.1 hj
    rw [← g8] at q1 q2
    simp only [decide_eq_true_eq, List.length_singleton] at q1 q2
    refine ⟨by omega, ?_⟩
    rw [← g7]
    exact q2
  · simp only [Roe.save] at f2
    unfold pumpingSave at f2
    split at f2
    · cases f2
    · injection f2 with f2
      exact f2.symm

theorem pumping_untouched (img out : Image K) (ccd : CcdView K) (dw : List K) (n : ℕ) (ef i : Bool) (roe' : Roe K)
    (groups : List (Group K)) (e o p : ℕ) (columns : List ℕ) (tw : Option (List ℕ))
    (h : clockCharge img ccd (.pumping dw n ef i) groups e o [p] columns tw = .ok (out, roe')) (S : ℕ → Prop)
    (hS : TrapsIn ccd S) (r : ℕ) (hr : r < img.nr)
    (hoff : ∀ step ph, ph < dw.length / 2 → S ph → ∀ x ∈ (genPhase (K := K) (dw.length / 2) false step ph).release,
      (r : ℤ) ≠ p + x.1) (c : ℕ) : out.px r c = img.px r c := by
  obtain ⟨cfg, st, h1, h2, rfl⟩ := clockCharge_ok h
  obtain ⟨f1, f2, f3, -, -⟩ := pumping_fields h1
  have key : Sat (fun _ => True) (fun s : Image K × ATM K => s.1.px r c = img.px r c)
      (clockLoops (atmSys ccd.fill) cfg columns (img.pad (nPadding (Roe.pumping dw n ef i).accessed),
        ATM.new groups ccd.fractions (maxNTransfers (.pumping dw n ef i) cfg))) := by
    refine clockLoops_sat _ ?_ (fun _ h => h) (fun _ h => h) (fun _ h => h) _ ?_
    · intro c0 _ k _ j _ step _ phase hp s hs
      cases hb : phaseBody (atmSys ccd.fill) cfg c0 j (cfg.expr.e k j) step s phase with
      | error e => trivial
      | ok s' =>
        change s'.1.px r c = _
        rw [← hs]
        unfold phaseBody at hb
        split at hb
        · rename_i ph row0 dwell e1 e2 e3
          obtain ⟨v, -, hb⟩ := bind_eq_ok hb
          obtain ⟨⟨net, s1⟩, -, hb⟩ := bind_eq_ok hb
          simp only at hb
          split at hb
          · injection hb with hb; rw [← hb]
          · obtain ⟨i1, h3, hb⟩ := bind_eq_ok hb
            injection hb with hb
            rw [← hb]
            have hrow : row0 = p := by
              rw [f2] at e2
              exact List.mem_singleton.1 (List.mem_of_getElem? e2)
            subst hrow
            rw [f1] at e1
            obtain ⟨q1, rfl⟩ := genClockSequence_get e1
            rw [f3] at hp
            obtain ⟨q2, q3⟩ := mem_positiveIndices.1 hp
            exact writeAll_other r c _ (hoff step phase q1 (hS phase q2 q3)) h3
        · cases hb
    · simp [Image.pad, hr]
  exact key.ok h2

/-- **C78**: during trap pumping of pixel `p` only `p` and its two neighbours in the column can change, whatever the
traps, the dwell times, the number of pumps and `express`. -/
theorem C78_neighbours (img out : Image K) (ccd : CcdView K) (dw : List K) (n : ℕ) (ef i : Bool) (roe' : Roe K)
    (groups : List (Group K)) (e o p : ℕ) (columns : List ℕ) (tw : Option (List ℕ))
    (h : clockCharge img ccd (.pumping dw n ef i) groups e o [p] columns tw = .ok (out, roe')) (r c : ℕ)
    (hr : r < img.nr) (h0 : r ≠ p) (h1 : r ≠ p + 1) (h2 : r + 1 ≠ p) : out.px r c = img.px r c :=
  pumping_untouched img out ccd dw n ef i roe' groups e o p columns tw h (fun _ => True) (fun _ _ _ => trivial) r hr
    (fun step ph hp _ x hx => by rcases release_any _ step ph hp x hx with h | h | h <;> rw [h] <;> omega) c

/-- **C78**: if the traps are in the first half of the pixel, `p` and `p + 1` only. -/
theorem C78_first_half (img out : Image K) (ccd : CcdView K) (dw : List K) (n : ℕ) (ef i : Bool) (roe' : Roe K)
    (groups : List (Group K)) (e o p : ℕ) (columns : List ℕ) (tw : Option (List ℕ))
    (h : clockCharge img ccd (.pumping dw n ef i) groups e o [p] columns tw = .ok (out, roe'))
    (hS : TrapsIn ccd fun ph => 2 * ph < dw.length / 2) (r c : ℕ)
    (hr : r < img.nr) (h0 : r ≠ p) (h1 : r ≠ p + 1) : out.px r c = img.px r c :=
  pumping_untouched img out ccd dw n ef i roe' groups e o p columns tw h _ hS r hr
    (fun step ph hp hs x hx => by
      rcases release_lower _ step ph (by omega) hs x hx with h | h <;> rw [h] <;> omega) c

/-- **C78**: if they are in the second half, `p` and `p - 1` only. -/
theorem C78_second_half (img out : Image K) (ccd : CcdView K) (dw : List K) (n : ℕ) (ef i : Bool) (roe' : Roe K)
    (groups : List (Group K)) (e o p : ℕ) (columns : List ℕ) (tw : Option (List ℕ))
    (h : clockCharge img ccd (.pumping dw n ef i) groups e o [p] columns tw = .ok (out, roe'))
    (hS : TrapsIn ccd fun ph => dw.length / 2 < 2 * ph) (r c : ℕ)
    (hr : r < img.nr) (h0 : r ≠ p) (h1 : r + 1 ≠ p) : out.px r c = img.px r c :=
  pumping_untouched img out ccd dw n ef i roe' groups e o p columns tw h _ hS r hr
    (fun step ph hp hs x hx => by
      rcases release_upper _ step ph hp hs x hx with h | h <;> rw [h] <;> omega) c

/-! ### neighbours gain -/

/-- All managers of a phase within budget. -/
def AllOk (M k : ℕ) (ms : List (Mgr K)) : Prop := ∀ m ∈ ms, MgrOk (0 < ·) M k m ∧ MgrReg m

theorem AllOk.mono {M k k' : ℕ} {ms : List (Mgr K)} (h : AllOk M k ms) (hk : k ≤ k') : AllOk M k' ms :=
  fun m hm => ⟨(h m hm).1.mono hk, (h m hm).2⟩

/-- Traps that are not under a cloud only release. -/
theorem AllOk.step {M k : ℕ} (hk : k < M) {f : K → K} (hf : FillModel f) (hpos : ∀ n, 0 < n → 0 < f n) (n t : K)
    (ht : 0 < t) {ms : List (Mgr K)} : AllOk M k ms → ∀ {v}, groupsStep n t f ms = .ok v →
      AllOk M (k + 1) v.2 ∧ (n = 0 → 0 ≤ v.1) := by
  induction ms with
  | nil =>
    intro _ v h
    unfold groupsStep at h
    injection h with h
    rw [← h]
    exact ⟨fun m hm => by simp at hm, fun _ => le_rfl⟩
  | cons m ms ih =>
    intro hall v h
    unfold groupsStep at h
    obtain ⟨⟨net, m'⟩, h1, h⟩ := bind_eq_ok h
    obtain ⟨⟨nets, ms'⟩, h2, h⟩ := bind_eq_ok h
    injection h with h
    rw [← h]
    obtain ⟨g1, g2⟩ := hall m List.mem_cons_self
    obtain ⟨q1, -, q3, q4⟩ := (g1.step hk hf n t ht ht.le).ok h1
    obtain ⟨a1, a2⟩ := ih (fun x hx => hall x (List.mem_cons_of_mem _ hx)) h2
    refine ⟨?_, ?_⟩
    · intro x hx
      rcases List.mem_cons.1 hx with rfl | hx
      · exact ⟨q1, q3 hpos g2⟩
      · exact a1 x hx
    · intro h0
      have b1 := q4 h0.ge g2
      have b2 := a2 h0
      simp only at b1 b2 ⊢
      rw [h0, neg_zero] at b1
      linarith

theorem allOk_new {M : ℕ} {groups : List (Group K)} {f : K}
    (hg : ∀ g ∈ groups, (∀ j, 0 ≤ g.dens j) ∧ g.kind.Ok (0 < ·)) (hf : 0 ≤ f) :
    AllOk M 0 (groups.map fun g => Mgr.new (fun j => g.dens j * f) g.kind M) := by
  intro m hm
  obtain ⟨g, hgm, rfl⟩ := List.mem_map.1 hm
  obtain ⟨a1, a2⟩ := hg g hgm
  obtain ⟨b1, b2, -⟩ := mgrOk_new (T := (0 < ·)) (fun j => g.dens j * f) g.kind M (fun j => mul_nonneg (a1 j) hf) a2
  exact ⟨b1, b2⟩

/-- While pixel `p` is pumped, all other pixels of the column have at least what `base` says. -/
structure PumpInv (M c p R D : ℕ) (base : ℕ → K) (u : ℕ → ℕ) (b : ℕ) (st : Image K × ATM K) : Prop where
  nr : st.1.nr = R
  grow : ∀ r < R, r ≠ p → base r ≤ st.1.px r c
  len : st.2.data.length = D
  data : ∀ ph ms, st.2.data[ph]? = some ms → AllOk M (u ph) ms
  effLen : st.2.eff.length = D
  eff : ∀ ms ∈ st.2.eff, AllOk M b ms

theorem writeAll_grow {c p R : ℕ} {base : ℕ → K} (hbase : ∀ r, 0 ≤ base r) (net mult : K) (hnet : 0 ≤ net)
    (hmult : 0 ≤ mult) (rel : List (ℤ × K)) (hrel : ∀ x ∈ rel, 0 ≤ x.2) :
    ∀ {img i : Image K}, img.nr = R → (∀ r < R, r ≠ p → base r ≤ img.px r c) →
      writeAll img p c net mult rel = .ok i → i.nr = R ∧ ∀ r < R, r ≠ p → base r ≤ i.px r c := by
  induction rel with
  | nil => intro img i h1 h2 h; unfold writeAll at h; injection h with h; rw [← h]; exact ⟨h1, h2⟩
  | cons x rel ih =>
    intro img i h1 h2 h
    obtain ⟨off, frac⟩ := x
    unfold writeAll at h
    obtain ⟨i1, h3, h4⟩ := bind_eq_ok h
    unfold writeBack at h3
    obtain ⟨old, h5, h6⟩ := bind_eq_ok h3
    injection h6 with h6
    obtain ⟨g1, g2, g3, g4⟩ := read_ok h5
    have hd : 0 ≤ net * frac * mult := mul_nonneg (mul_nonneg hnet (hrel _ List.mem_cons_self)) hmult
    refine ih (fun y hy => hrel y (List.mem_cons_of_mem _ hy)) ?_ ?_ h4
    · rw [← h6]; exact h1
    · intro r hr hrp
      rw [← h6]
      unfold Image.set
      simp only
      split
      · rename_i heq
        have := h2 r hr hrp
        rw [heq.1, ← g4] at this
        have h0 := hbase r
        rw [heq.1] at h0 ⊢
        rw [if_neg (by linarith)]
        linarith
      · exact h2 r hr hrp

theorem pumpInv_phase {c p R N : ℕ} {base : ℕ → K} (hbase : ∀ r, 0 ≤ base r) {dw : List K} {n : ℕ} {ef i : Bool}
    {ccd : CcdView K} {e o : ℕ} {tw : Option (List ℕ)} {cfg : ClockCfg K} {roe' : Roe K}
    (hcfg : clockCfg (.pumping dw n ef i) ccd e o [p] tw = .ok (cfg, roe')) (hccd : GoodFill ccd)
    (hS : TrapsIn ccd fun ph => 1 ≤ ph) :
    BudgetInv (atmSys ccd.fill) cfg (fun _ => True) N c
      (PumpInv (N * cfg.steps.length) c p R ccd.fractions.length base) where
  phase := by
    intro k hk j hj step hs phase hp u b st h hu
    obtain ⟨f1, f2, f3, f4, -⟩ := pumping_fields hcfg
    obtain ⟨-, -, -, g4, g5, -, -, -⟩ := clockCfg_fields hcfg
    cases hb : phaseBody (atmSys ccd.fill) cfg c j (cfg.expr.e k j) step st phase with
    | error e => trivial
    | ok s' =>
      change PumpInv _ _ _ _ _ _ _ _ s'
      unfold phaseBody at hb
      split at hb
      · rename_i ph row0 dwell e1 e2 e3
        obtain ⟨v, hv, hb⟩ := bind_eq_ok hb
        obtain ⟨⟨net, a⟩, hre, hb⟩ := bind_eq_ok hb
        have hmult := (f4 k j hj).2
        simp only at hb
        rw [if_neg hmult.ne'] at hb
        obtain ⟨i1, h3, hb⟩ := bind_eq_ok hb
        injection hb with hb
        rw [← hb]
        have hrow : row0 = p := by
          rw [f2] at e2
          exact List.mem_singleton.1 (List.mem_of_getElem? e2)
        subst hrow
        rw [f1] at e1
        obtain ⟨q1, rfl⟩ := genClockSequence_get e1
        rw [f3] at hp
        obtain ⟨q2, q3⟩ := mem_positiveIndices.1 hp
        have hph1 : 1 ≤ phase := hS phase q2 q3
        have ht : 0 < dwell := by
          rw [g5] at hs
          rw [g4] at e3
          have := (mem_positiveIndices.1 hs).2
          rw [List.getD_eq_getElem?_getD, e3] at this
          exact this
        change st.2.react phase _ dwell (ccd.fill phase) = _ at hre
        obtain ⟨ms, ms', w1, w2, w3⟩ := ATM.react_data hre
        have hem := ATM.react_emptied hre
        have heff : a.eff = st.2.eff := ATM.eff_of hem.2 hem.1
        obtain ⟨y1, y2⟩ := (h.data phase ms w1).step hu (hccd.2 phase q2).1 (hccd.2 phase q2).2 _ dwell ht w2
        simp only at y1 y2
        have himg : i1.nr = R ∧ ∀ r < R, r ≠ row0 → base r ≤ i1.px r c := by
          by_cases hh : (genPhase (K := K) (dw.length / 2) false step phase).isHigh = true
          · rw [high_release _ step phase q1 hph1 hh] at h3
            refine ⟨(writeAll_inv ⟨cfg.expr, cfg.monitor, cfg.saveMat, cfg.clockSeq, cfg.dwell, cfg.steps, cfg.phases,
              cfg.rowWindow, cfg.emptyBetween⟩ c (fun i => i.nr = R) (fun i hi r v _ _ _ _ => hi) row0 ?_ net _ _ ?_ _ _
              h.nr h3), fun r hr hrp => ?_⟩
            · rw [f2]; exact List.mem_singleton.2 rfl
            · intro x hx
              rw [f1]
              refine mem_writeOffsets e1 x ?_
              rw [high_release _ step phase q1 hph1 hh]; exact hx
            · rw [writeAll_other r c _ (fun x hx => by
                rcases List.mem_singleton.1 hx with rfl
                simp only; omega) h3]
              exact h.grow r hr hrp
          · refine writeAll_grow hbase net _ (y2 ?_) hmult.le _ (C13_fractions _ _ _ _).2 h.nr h.grow h3
            rw [if_neg hh, mul_zero]
        refine ⟨himg.1, himg.2, ?_, ?_, ?_, ?_⟩
        · simp only [w3, List.length_set]; exact h.len
        · intro q mq hq
          simp only [w3] at hq
          unfold bump
          by_cases hqp : q = phase
          · subst hqp
            rw [List.getElem?_set_self (by rw [h.len]; exact q2)] at hq
            rw [← Option.some.inj hq, if_pos rfl]
            exact y1
          · rw [List.getElem?_set_ne (Ne.symm hqp)] at hq
            rw [if_neg hqp]
            exact h.data q mq hq
        · simp only [heff]; exact h.effLen
        · simp only [heff]; exact h.eff
      · cases hb
  save := by
    rintro - u b v st h hv
    have heff : (ATM.save st.2).eff = st.2.data := ATM.eff_save _
    refine ⟨h.nr, h.grow, h.len, h.data, ?_, ?_⟩
    · change (ATM.save st.2).eff.length = _
      rw [heff]; exact h.len
    · change ∀ ms ∈ (ATM.save st.2).eff, _
      rw [heff]
      intro ms hms
      obtain ⟨i, hi, rfl⟩ := List.getElem_of_mem hms
      exact (h.data i _ (List.getElem?_eq_getElem hi)).mono (hv i)
  restore := by
    intro u b st h
    have heff : (ATM.restore st.2).eff = st.2.eff := ATM.eff_restore _
    have hdata : (ATM.restore st.2).data = st.2.eff := rfl
    refine ⟨h.nr, h.grow, ?_, ?_, ?_, ?_⟩
    · change (ATM.restore st.2).data.length = _
      rw [hdata]; exact h.effLen
    · intro ph ms hms
      change (ATM.restore st.2).data[ph]? = some ms at hms
      rw [hdata] at hms
      exact h.eff ms (List.mem_of_getElem? hms)
    · change (ATM.restore st.2).eff.length = _
      rw [heff]; exact h.effLen
    · change ∀ ms ∈ (ATM.restore st.2).eff, _
      rw [heff]; exact h.eff
  mono u u' b st h hu := ⟨h.nr, h.grow, h.len, fun ph ms hms => (h.data ph ms hms).mono (hu ph), h.effLen, h.eff⟩

/-- The pixel pumped is processed once in each pass. -/
theorem pumping_schedule {dw : List K} {n : ℕ} {ef i : Bool} {ccd : CcdView K} {e o p : ℕ} {tw : Option (List ℕ)}
    {cfg : ClockCfg K} {roe' : Roe K} (h : clockCfg (.pumping dw n ef i) ccd e o [p] tw = .ok (cfg, roe')) :
    Schedule cfg cfg.expr.nr fun k _ => k := by
  obtain ⟨-, -, -, f4, -⟩ := pumping_fields h
  refine ⟨fun k hk _ _ => hk, ?_, fun k _ j _ _ k' _ hkk _ _ => hkk⟩
  intro k _ j hj j' hj' hlt
  have h1 := (f4 k j hj).1
  have h2 := (f4 k j' hj').1
  omega

/-- **C78**: with traps (of any number of groups) anywhere but in the first phase, no other pixel loses electrons. -/
theorem C78_gain (img out : Image K) (ccd : CcdView K) (dw : List K) (n : ℕ) (ef i : Bool) (roe' : Roe K)
    (groups : List (Group K)) (e o p : ℕ) (columns : List ℕ) (tw : Option (List ℕ)) (hccd : GoodFill ccd)
    (hg : ∀ g ∈ groups, (∀ j, 0 ≤ g.dens j) ∧ g.kind.Ok (0 < ·)) (hnd : columns.Nodup)
    (h : clockCharge img ccd (.pumping dw n ef i) groups e o [p] columns tw = .ok (out, roe'))
    (hS : TrapsIn ccd fun ph => 1 ≤ ph) (r c : ℕ) (hr : r < img.nr) (hp : r ≠ p)
    (h0 : ∀ r < img.nr, 0 ≤ img.px r c) : img.px r c ≤ out.px r c := by
  by_cases hc : c ∈ columns
  swap
  · exact ((C27_columns img ccd _ groups e o [p] columns tw rfl hnd out roe' h).2 c hc r hr).ge
  obtain ⟨cfg, st, h1, h2, rfl⟩ := clockCharge_ok h
  have hb' : cfg.emptyBetween = true := (clockCfg_fields h1).2.2.2.2.2.2.2
  obtain ⟨o1, h3, h4⟩ := columns_split ccd.fill cfg hb' hnd (fresh_new _ _ _) h2 (fresh_new _ _ _) c hc
  rw [clockLoops_single] at h3
  unfold columnBody at h3
  obtain ⟨⟨fin, traps⟩, h5, h6⟩ := bind_eq_ok h3
  injection h6 with h6
  have hpad : ∀ r, (img.pad (nPadding (Roe.pumping dw n ef i).accessed)).px r c = if r < img.nr then img.px r c else 0 := by
    intro r; simp [Image.pad]
  have hB := pumpInv_phase (c := c) (R := (img.pad (nPadding (Roe.pumping dw n ef i).accessed)).nr) (N := cfg.expr.nr)
    (base := fun r => (img.pad (nPadding (Roe.pumping dw n ef i).accessed)).px r c) (by
      intro r
      simp only [hpad]
      split
      · rename_i hr; exact h0 r hr
      · exact le_rfl) h1 hccd hS
  have hM : maxNTransfers (.pumping dw n ef i) cfg = cfg.expr.nr * cfg.steps.length := rfl
  have hdata : ∀ ms ∈ (ATM.new groups ccd.fractions (cfg.expr.nr * cfg.steps.length)).data,
      AllOk (cfg.expr.nr * cfg.steps.length) 0 ms := by
    intro ms hms
    simp only [ATM.new, List.mem_map] at hms
    obtain ⟨f, hf, rfl⟩ := hms
    exact allOk_new hg (hccd.1 f hf)
  have heff := (fresh_new groups ccd.fractions (cfg.expr.nr * cfg.steps.length)).2.1
  rw [hM] at h5
  obtain ⟨u, b, hI⟩ := (hB.passes (by rw [(clockCfg_fields h1).2.2.2.2.2.1]; exact positiveIndices_nodup _)
    (pumping_schedule h1) _ (fun _ => 0) (by
      refine ⟨rfl, fun _ _ _ => le_rfl, by simp [ATM.new], fun ph ms hms => hdata ms (List.mem_of_getElem? hms), ?_, ?_⟩
      · change (ATM.new groups ccd.fractions _).eff.length = _
        rw [heff]; simp [ATM.new]
      · change ∀ ms ∈ (ATM.new groups ccd.fractions _).eff, _
        rw [heff]; exact hdata)).ok h5
  have := hI.grow r (by simp only [Image.pad]; omega) hp
  simp only [hpad, if_pos hr] at this
  have hpx : st.1.px r c = fin.px r c := by rw [← h4.2.2 r, ← h6]
  change _ ≤ st.1.px r c
  rw [hpx]
  exact this

/-! ### the pixel pumped loses -/

/-- The pass-to-pass account of pumping: what is saved is what is trapped. -/
def Carried (a : ATM K) : Prop := a.previously = 0 ∧ a.inSave = trappedIn a.eff

theorem pumping_pass {fill : ℕ → K → K} {cfg : ClockCfg K} {c k : ℕ} (hk : k < cfg.expr.nr)
    (hmon : ∀ j ∈ monitoredRows cfg k, k + 1 < cfg.expr.nr → cfg.saveMat.e k j = true) {st st' : Image K × ATM K}
    (h : expressBody (atmSys fill) cfg c st k = .ok st') (h1 : Carried st.2) (h2 : st.2.currently = st.2.inSave) :
    Carried st'.2 ∧ (k + 1 < cfg.expr.nr → st'.2.currently = st'.2.inSave) := by
  have hrestore : Carried (ATM.restore st.2) ∧ (ATM.restore st.2).currently = (ATM.restore st.2).inSave := by
    have heff : (ATM.restore st.2).eff = st.2.eff := ATM.eff_restore _
    have hc : (ATM.restore st.2).currently = trappedIn st.2.eff := rfl
    have hp : (ATM.restore st.2).previously = st.2.previously + (st.2.currently - st.2.inSave) := by
      unfold ATM.restore
      cases st.2.saved <;> rfl
    have hi : (ATM.restore st.2).inSave = st.2.inSave := by
      unfold ATM.restore
      cases st.2.saved <;> rfl
    refine ⟨⟨by rw [hp, h1.1, h2]; ring, by rw [hi, heff]; exact h1.2⟩, by rw [hc, hi, h1.2]⟩
  unfold expressBody at h
  have key := Sat.fold' (E := fun _ => True) (fun s : Image K × ATM K => Carried s.2 ∧
      (k + 1 < cfg.expr.nr → s.2.currently = s.2.inSave)) (rowBody (atmSys fill) cfg c k) (monitoredRows cfg k) (by
    rintro j hj s ⟨g1, g2⟩
    unfold rowBody
    refine Sat.bind (Sat.fold' (E := fun _ => True) (fun s : Image K × ATM K => Carried s.2) _ _ ?_ s g1) ?_
    · intro step _ s hs
      unfold stepBody
      refine Sat.fold' (E := fun _ => True) (fun s : Image K × ATM K => Carried s.2) _ _ ?_ s hs
      intro phase _ s hs
      cases hb : phaseBody (atmSys fill) cfg c j (cfg.expr.e k j) step s phase with
      | error e => trivial
      | ok s' =>
        change Carried s'.2
        unfold phaseBody at hb
        split at hb
        · obtain ⟨v, -, hb⟩ := bind_eq_ok hb
          obtain ⟨⟨net, a⟩, hre, hb⟩ := bind_eq_ok hb
          have ha : Carried a := by
            obtain ⟨ms, ms', w1, w2, w3⟩ := ATM.react_data hre
            have hem := ATM.react_emptied hre
            have heff : a.eff = s.2.eff := ATM.eff_of hem.2 hem.1
            refine ⟨by rw [w3]; exact hs.1, ?_⟩
            rw [heff, w3]
            exact hs.2
          simp only at hb
          split at hb
          · injection hb with hb; rw [← hb]; exact ha
          · obtain ⟨i1, h3, hb⟩ := bind_eq_ok hb
            injection hb with hb; rw [← hb]; exact ha
        · cases hb
    · intro s hs
      have heff : (ATM.save s.2).eff = s.2.data := ATM.eff_save _
      by_cases hsave : cfg.saveMat.e k j = true
      · rw [if_pos hsave]
        refine ⟨⟨hs.1, ?_⟩, fun _ => rfl⟩
        change (ATM.save s.2).inSave = trappedIn (ATM.save s.2).eff
        rw [heff]; rfl
      · rw [if_neg hsave]
        exact ⟨hs, fun hlt => absurd (hmon j hj hlt) hsave⟩) (st.1, (atmSys fill).restore st.2)
    ⟨hrestore.1, fun _ => hrestore.2⟩
  exact key.ok h

theorem pumping_previously {fill : ℕ → K → K} {cfg : ClockCfg K} {c : ℕ}
    (hmon : ∀ k, ∀ j ∈ monitoredRows cfg k, k + 1 < cfg.expr.nr → cfg.saveMat.e k j = true) {st st' : Image K × ATM K}
    (h : (List.range cfg.expr.nr).foldlM (expressBody (atmSys fill) cfg c) st = .ok st') (h1 : Carried st.2)
    (h2 : st.2.currently = st.2.inSave) : st'.2.previously = 0 := by
  have key := Sat.fold (E := fun _ => True) (fun rest s => Carried s.2 ∧ (rest ≠ [] → s.2.currently = s.2.inSave))
    (expressBody (atmSys fill) cfg c) (List.range cfg.expr.nr) (by
      rintro k l' s hsuf ⟨g1, g2⟩
      cases hb : expressBody (atmSys fill) cfg c s k with
      | error e => trivial
      | ok s' =>
        have hk : k < cfg.expr.nr := List.mem_range.1 (hsuf.subset List.mem_cons_self)
        obtain ⟨q1, q2⟩ := pumping_pass hk (hmon k) hb g1 (g2 (by simp))
        refine ⟨q1, fun hne => q2 ?_⟩
        obtain ⟨x, l'', rfl⟩ := List.exists_cons_of_ne_nil hne
        have hs := List.Pairwise.sublist hsuf.sublist (List.pairwise_lt_range (n := cfg.expr.nr))
        have hkx := (List.pairwise_cons.1 hs).1 x List.mem_cons_self
        have hx : x < cfg.expr.nr := List.mem_range.1 (hsuf.subset (by simp))
        omega) st ⟨h1, fun _ => h2⟩
  exact (key.ok h).1.1

/-- **C78**: with `express = 0` and one group of traps, anywhere but in the first phase, the pixel pumped loses what its
neighbours and the traps gain. -/
theorem C78_source (img out : Image K) (ccd : CcdView K) (dw : List K) (n : ℕ) (ef i : Bool) (roe' : Roe K)
    (groups : List (Group K)) (o p : ℕ) (columns : List ℕ) (tw : Option (List ℕ)) (hccd : GoodFill ccd)
    (hone : groups.length ≤ 1) (hg : ∀ g ∈ groups, (∀ j, 0 ≤ g.dens j) ∧ g.kind.Ok (0 < ·)) (hnd : columns.Nodup)
    (h : clockCharge img ccd (.pumping dw n ef i) groups 0 o [p] columns tw = .ok (out, roe'))
    (hS : TrapsIn ccd fun ph => 1 ≤ ph) (c : ℕ) (hp : p < img.nr)
    (h0 : ∀ r < img.nr, 0 ≤ img.px r c) : out.px p c ≤ img.px p c := by
  by_cases hc : c ∈ columns
  swap
  · exact ((C27_columns img ccd _ groups 0 o [p] columns tw rfl hnd out roe' h).2 c hc p hp).le
  obtain ⟨cfg, fin, traps, a1, a2, a3, a4, a5, a6, -, a8⟩ := C31_account img out ccd (.pumping dw n ef i) roe' groups o
    [p] columns tw trivial rfl hnd hccd hone hg h c hc h0
  obtain ⟨-, -, -, f4, f5⟩ := pumping_fields a1
  have hprev : traps.previously = 0 := by
    have heff : (ATM.new groups ccd.fractions (maxNTransfers (.pumping dw n ef i) cfg)).eff =
      (ATM.new groups ccd.fractions (maxNTransfers (.pumping dw n ef i) cfg)).data := (fresh_new groups ccd.fractions _).2.1
    have hz : trappedIn (ATM.new groups ccd.fractions (maxNTransfers (.pumping dw n ef i) cfg)).data = 0 := by
      rw [← emptied_new groups ccd.fractions _, trappedIn_emptied]
    refine pumping_previously ?_ a2 ⟨rfl, ?_⟩ ?_
    · intro k j hj hlt
      rw [f5]
      simp only [decide_eq_true_eq]
      exact ⟨(f4 k j hj).1, hlt⟩
    · change (0 : K) = trappedIn (ATM.new groups ccd.fractions _).eff
      rw [heff, hz]
    · exact hz
  have hs : 0 ≤ spill fin img.nr c := Finset.sum_nonneg fun r hr => a5 _ (by have := mem_range.1 hr; omega)
  have hle : ∑ r ∈ (range img.nr).erase p, img.px r c ≤ ∑ r ∈ (range img.nr).erase p, out.px r c :=
    Finset.sum_le_sum fun r hr => by
      obtain ⟨hne, hr⟩ := Finset.mem_erase.1 hr
      exact C78_gain img out ccd dw n ef i roe' groups 0 o p columns tw hccd hg hnd h hS r c (mem_range.1 hr) hne h0
  have e1 : colSum img c = img.px p c + ∑ r ∈ (range img.nr).erase p, img.px r c :=
    (Finset.add_sum_erase _ _ (mem_range.2 hp)).symm
  have e2 : colSum out c = out.px p c + ∑ r ∈ (range img.nr).erase p, out.px r c := by
    unfold colSum
    rw [a4]
    exact (Finset.add_sum_erase _ _ (mem_range.2 hp)).symm
  rw [e1, e2, hprev] at a8
  linarith

/-! ### examples -/

/-- `N` phases with all traps in phase `j`. -/
def exPhase (N j : ℕ) : CcdView ℚ := ⟨(List.range N).map fun q => if q = j then 1 else 0, fun _ => fill100⟩

/-- Pumping the middle one of five pixels. -/
def exPump (N j : ℕ) : Except Err (List (List ℚ)) :=
  (clockCharge (exImg 5 1 [[40], [40], [40], [40], [40]]) (exPhase N j)
    (.pumping (List.replicate (2 * N) 1) 2 false false) [exGroup] 0 0 [2] [0] none).map fun x => x.1.rows

/-- The hypotheses of `C78_gain` and `C78_source` hold for traps in phase 1 or 2 of 3. -/
example : TrapsIn (exPhase 3 1) (fun ph => 1 ≤ ph) ∧ TrapsIn (exPhase 3 1) (fun ph => 2 * ph < 3) ∧
    TrapsIn (exPhase 3 2) (fun ph => 1 ≤ ph) ∧ TrapsIn (exPhase 3 2) (fun ph => 3 < 2 * ph) ∧
    GoodFill (exPhase 3 1) ∧ GoodFill (exPhase 3 2) := by
  refine ⟨?_, ?_, ?_, ?_, ⟨by decide +kernel, fun _ _ => ⟨fill100_model, fill100_pos⟩⟩,
    ⟨by decide +kernel, fun _ _ => ⟨fill100_model, fill100_pos⟩⟩⟩ <;>
  · unfold TrapsIn
    decide +kernel

/-- Traps in phase 1 of 3: electrons move from the pixel pumped to the next one. -/
example : exPump 3 1 =
    .ok [[40], [40], [459967529627200527 / 13421772800000000], [219937641928391 / 5242880000000], [40]] := by
  decide +kernel

/-- Traps in phase 2 of 3: to the previous one. -/
example : exPump 3 2 = .ok [[40], [52451663 / 1280000], [15526005302816707 / 419430400000000], [40], [40]] := by
  decide +kernel

/-- Traps in phase 1 of 2: to both. -/
example : exPump 2 1 = .ok [[40], [65463 / 1600], [2149719 / 64000], [1071101 / 25600], [40]] := by
  decide +kernel

/-- **C78**: traps in the first phase also capture from the next pixel, which may lose. -/
theorem C78_first_phase_false : ∃ v, exPump 2 0 = .ok [[40], [40], [156109091 / 4096000], [v], [40]] ∧ v < 40 :=
  ⟨32514423 / 819200, by decide +kernel, by norm_num⟩

/-- Traps that take most of a small cloud. -/
def exDense : Group ℚ := ⟨1, fun _ => 70, .instant fun _ _ => 1 / 2⟩

/-- Pumping an isolated pixel of 5 electrons. -/
def exPumpOne (groups : List (Group ℚ)) (n e : ℕ) : Except Err (List (List ℚ)) :=
  (clockCharge (exImg 5 1 [[0], [0], [5], [0], [0]]) (exPhase 3 2)
    (.pumping [1, 1, 1, 1, 1, 1] n false false) groups e 0 [2] [0] none).map fun x => x.1.rows

/-- **C78**: with `express` (here 10 pumps in one pass) the pixel pumped may gain: from 5 to more than 28 electrons. -/
theorem C78_express_false : ∃ v, exPumpOne [exDense] 10 1 = .ok [[0], [0], [v], [0], [0]] ∧ 28 < v :=
  ⟨182819 / 6400, by decide +kernel, by norm_num⟩

/-- **C78**: and so it may with many groups of traps, each of which captures from the whole cloud. -/
theorem C78_groups_false :
    ∃ v, exPumpOne (List.replicate 20 exDense) 1 0 = .ok [[0], [0], [v], [0], [0]] ∧ 100 < v :=
  ⟨348439 / 3200, by decide +kernel, by norm_num⟩

end Arctic
