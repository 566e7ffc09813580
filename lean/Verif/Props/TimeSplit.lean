import Verif.Lemmas.TimeSplit
import Verif.Props.Clock
import Verif.Props.ClockExamples

/-!
# C33: splitting the readout in time
-/

set_option linter.unusedSectionVars false
set_option linter.unusedVariables false

namespace Arctic

variable {K : Type} [Field K] [LinearOrder K] [IsStrictOrderedRing K]

/-! ### serial clocking of the rows read out in a time window -/

theorem mem_pyRange {lo hi : ℤ} (h0 : 0 ≤ lo) (c : ℕ) : c ∈ pyRange lo hi ↔ lo ≤ c ∧ (c : ℤ) < hi := by
  unfold pyRange
  rw [List.mem_map]
  constructor
  · rintro ⟨i, hi, rfl⟩
    rw [List.mem_range] at hi
    omega
  · rintro ⟨h1, h2⟩
    exact ⟨((c : ℤ) - lo).toNat, by rw [List.mem_range]; omega, by omega⟩

theorem nodup_pyRange {lo hi : ℤ} (h0 : 0 ≤ lo) : (pyRange lo hi).Nodup := by
  unfold pyRange
  refine List.Nodup.map_on ?_ List.nodup_range
  intro x _ y _ h
  omega

theorem serialColumns_ok {rows : List ℕ} {a b o : ℕ} (hab : a < b) {sc : List ℕ}
    (h : serialColumns rows (rangeAB a b) o = .ok sc) :
    ∃ r0 r1, rows.head? = some r0 ∧ rows.getLast? = some r1 ∧ sc.Nodup ∧
      ∀ r, r ∈ sc ↔ r0 ≤ r ∧ r ≤ r1 ∧ a ≤ r + o ∧ r + o < b := by
  unfold serialColumns at h
  rw [rangeAB_head hab, rangeAB_last hab] at h
  cases h1 : rows.head? with
  | none => rw [h1] at h; cases h
  | some r0 =>
    cases h2 : rows.getLast? with
    | none => rw [h1, h2] at h; cases h
    | some r1 =>
      rw [h1, h2] at h
      injection h with h
      subst h
      refine ⟨r0, r1, rfl, rfl, nodup_pyRange (by omega), fun r => ?_⟩
      rw [mem_pyRange (by omega)]
      omega

/-- Clocking some rows serially in two goes. -/
theorem serial_combine (mid1 mid2 mid3 : Image K) (d : Direction K) (hb : d.roe.emptyBetween = true) (cols : List ℕ)
    (A1 A2 A : List ℕ) (hn1 : A1.Nodup) (hn2 : A2.Nodup) (hn : A.Nodup) (hA : ∀ r, r ∈ A ↔ r ∈ A1 ∨ r ∈ A2)
    (early : ℕ → Prop) (he1 : ∀ r ∈ A1, early r) (he2 : ∀ r ∈ A2, ¬ early r)
    (s1 : mid1.nr = mid3.nr ∧ mid1.nc = mid3.nc) (s2 : mid2.nr = mid3.nr ∧ mid2.nc = mid3.nc)
    (hr : ∀ r ∈ A, r < mid3.nr)
    {res1 res2 : Image K} {roe1 : Roe K}
    (h31 : ∀ r < mid3.nr, early r → ∀ q < mid3.nc, mid3.px r q = mid1.px r q)
    (h21 : ∀ r < mid3.nr, early r → ∀ q < mid3.nc, mid2.px r q = res1.transpose.px r q)
    (h32 : ∀ r < mid3.nr, ¬ early r → ∀ q < mid3.nc, mid3.px r q = mid2.px r q)
    (S1 : clockCharge mid1.transpose d.ccd d.roe d.groups d.express d.offset cols A1 none = .ok (res1, roe1))
    {roe2 : Roe K}
    (S2 : clockCharge mid2.transpose d.ccd d.roe d.groups d.express d.offset cols A2 none = .ok (res2, roe2)) :
    ∃ res3, clockCharge mid3.transpose d.ccd d.roe d.groups d.express d.offset cols A none = .ok (res3, roe1) ∧
      ∀ r < mid3.nr, ∀ q < mid3.nc, res3.transpose.px r q = res2.transpose.px r q := by
  obtain ⟨c1, f1⟩ := C27_columns _ _ _ _ _ _ _ _ _ hb hn1 _ _ S1
  obtain ⟨c2, f2⟩ := C27_columns _ _ _ _ _ _ _ _ _ hb hn2 _ _ S2
  -- every row alone
  have single : ∀ r ∈ A, ∃ o3 roe', clockCharge mid3.transpose d.ccd d.roe d.groups d.express d.offset cols [r] none
      = .ok (o3, roe') ∧ ∀ q < mid3.nc, o3.px q r = res2.px q r := by
    intro r hrA
    have hrn := hr r hrA
    rcases (hA r).1 hrA with h1 | h2
    · obtain ⟨o1, g1, g2⟩ := c1 r h1
      obtain ⟨o3, g3, g4⟩ := C27_input mid1.transpose mid3.transpose d.ccd d.roe d.groups d.express d.offset cols r none
        s1.2 s1.1 (fun q hq => (h31 r hrn (he1 r h1) q (s1.2 ▸ hq)).symm) o1 roe1 g1
      refine ⟨o3, _, g3, fun q hq => ?_⟩
      have hnot : r ∉ A2 := fun h => he2 r h (he1 r h1)
      rw [g4 q, g2 q, f2 r hnot q (hq.trans_eq s2.2.symm)]
      exact (h21 r hrn (he1 r h1) q hq).symm
    · obtain ⟨o2, g1, g2⟩ := c2 r h2
      obtain ⟨o3, g3, g4⟩ := C27_input mid2.transpose mid3.transpose d.ccd d.roe d.groups d.express d.offset cols r none
        s2.2 s2.1 (fun q hq => (h32 r hrn (he2 r h2) q (s2.2 ▸ hq)).symm) o2 roe2 g1
      exact ⟨o3, _, g3, fun q hq => by rw [g4 q, g2 q]⟩
  have hok : ∃ res3, clockCharge mid3.transpose d.ccd d.roe d.groups d.express d.offset cols A none
      = .ok (res3, roe1) := by
    obtain ⟨cfg, st, g1, g2, -⟩ := clockCharge_ok S1
    cases hAe : A with
    | nil => exact ⟨_, clockCharge_of (st := (_, _)) g1 rfl⟩
    | cons r0 rs =>
      obtain ⟨⟨res3, roe3⟩, g⟩ := C27_join mid3.transpose d.ccd d.roe d.groups d.express d.offset cols A none hb hn
        (by rw [hAe]; simp) (fun r hrA => by obtain ⟨o3, roe', g, -⟩ := single r hrA; exact ⟨_, g⟩)
      obtain ⟨cfg3, st3, g3, g4, -⟩ := clockCharge_ok g
      rw [g1] at g3
      injection g3 with g3; injection g3 with _ g3
      rw [← hAe]
      exact ⟨res3, g3 ▸ g⟩
  obtain ⟨res3, g⟩ := hok
  obtain ⟨c3, f3⟩ := C27_columns _ _ _ _ _ _ _ _ _ hb hn _ _ g
  refine ⟨res3, g, fun r hrn q hq => ?_⟩
  change res3.px q r = res2.px q r
  by_cases hrA : r ∈ A
  · obtain ⟨o3, g1, g2⟩ := c3 r hrA
    obtain ⟨o3', roe', g3, g4⟩ := single r hrA
    rw [g1] at g3
    injection g3 with g3; injection g3 with g3 _
    rw [← g2 q, g3, g4 q hq]
  · have h1 : r ∉ A1 := fun h => hrA ((hA r).2 (Or.inl h))
    have h2 : r ∉ A2 := fun h => hrA ((hA r).2 (Or.inr h))
    rw [f3 r hrA q hq, f2 r h2 q (hq.trans_eq s2.2.symm)]
    change mid3.px r q = mid2.px r q
    by_cases he : early r
    · rw [h31 r hrn he q hq, h21 r hrn he q hq]
      exact (f1 r h1 q (hq.trans_eq s1.2.symm)).symm
    · exact h32 r hrn he q hq

/-- The standard readout is not changed by clocking. -/
theorem clockCharge_standard {img : Image K} {ccd : CcdView K} {d : List K} {ef eb f i : Bool} {groups : List (Group K)}
    {e o : ℕ} {rows columns : List ℕ} {tw : Option (List ℕ)} {out : Image K} {roe' : Roe K}
    (h : clockCharge img ccd (.standard d ef eb f i) groups e o rows columns tw = .ok (out, roe')) :
    roe' = .standard d ef eb f i := by
  obtain ⟨cfg, st, g, -⟩ := clockCharge_ok h
  have := (clockCfg_fields g).1
  simp only [Roe.express] at this
  cases hx : roeExpress (K := K) ef i rows e o tw with
  | error e => rw [hx] at this; cases this
  | ok v =>
    rw [hx] at this
    injection this with this
    injection this with _ this
    injection this with _ this
    exact this.symm

/-- Both directions, with a time window. -/
theorem addCti_both_time (img : Image K) (dp ds : Direction K) (o : ℕ) (pw sw : Window) (t sc : List ℕ)
    (hs : serialColumns (pw.resolve img.nr) t o = .ok sc) {mid res : Image K} {roe1 roe2 : Roe K}
    (hp : clockCharge img dp.ccd dp.roe dp.groups dp.express o (pw.resolve img.nr) (sw.resolve img.nc) (some t) =
      .ok (mid, roe1))
    (hr : clockCharge mid.transpose ds.ccd ds.roe ds.groups ds.express ds.offset (sw.resolve img.nc) sc none =
      .ok (res, roe2)) :
    addCti img (some dp) o pw (some ds) sw (some t) =
      .ok (res.transpose, some { dp with roe := roe1 }, some { ds with roe := roe2 }) := by
  unfold addCti
  simp only [Option.getD_some, hs, hp]
  change ((clockCharge mid.transpose ds.ccd ds.roe ds.groups ds.express ds.offset (sw.resolve img.nc) sc none) >>=
        fun (x : Image K × Roe K) =>
          Except.ok (x.1.transpose, some { dp with roe := roe1 }, some { ds with roe := x.2 })) = _
  rw [hr]
  rfl

/-- **C33.** With `express = 0` a readout can be split in time without changing the result: `add_cti` for the time window
`range(t0, a)` followed by `add_cti` on the result for `range(a, t1)` is `add_cti` for `range(t0, t1)`.
The parallel readout is the standard one with the default flags (traps emptied for the first transfers and between
columns, forced release); the serial one is any standard readout that empties the traps between rows. -/
theorem C33_split (img : Image K) (dp : Direction K) (ser : Option (Direction K)) (d : List K) (i : Bool)
    (hroe : dp.roe = .standard d true true true i) (hexp : dp.express = 0)
    (hser : ∀ ds, ser = some ds → ∃ dw ef f j, ds.roe = .standard dw ef true f j)
    (o : ℕ) (pw sw : Window) (hrows : ∀ r ∈ pw.resolve img.nr, r < img.nr)
    (hcols : ∀ c ∈ sw.resolve img.nc, c < img.nc) (hnd : (sw.resolve img.nc).Nodup)
    (t0 a t1 : ℕ) (ht0 : t0 < a) (ht1 : a < t1)
    (out1 out2 : Image K) (par1 ser1 par2 ser2 : Option (Direction K))
    (h1 : addCti img (some dp) o pw ser sw (some (rangeAB t0 a)) = .ok (out1, par1, ser1))
    (h2 : addCti out1 par1 o pw ser1 sw (some (rangeAB a t1)) = .ok (out2, par2, ser2)) :
    ∃ out, addCti img (some dp) o pw ser sw (some (rangeAB t0 t1)) = .ok (out, some dp, ser) ∧
      out.nr = out2.nr ∧ out.nc = out2.nc ∧ ∀ r < out.nr, ∀ c < out.nc, out.px r c = out2.px r c := by
  have ht : t0 < t1 := ht0.trans ht1
  obtain ⟨sc1, mid1, k1, p1, s1⟩ := addCti_ok h1
  rcases k1 with ⟨k, -⟩ | ⟨_, k, k1⟩
  · cases k
  injection k with k; subst k
  rcases p1 with ⟨p, -⟩ | ⟨_, roe1, p, rfl, p1⟩
  · cases p
  injection p with p; subst p
  rw [hroe, hexp, Option.getD_some] at p1
  -- the readout objects are unchanged
  have hr1 := clockCharge_standard p1
  have hdp : ({ dp with roe := roe1 } : Direction K) = dp := by rw [hr1, ← hroe]
  rw [hdp] at h2
  obtain ⟨n1, n2⟩ := clockCharge_shape p1
  obtain ⟨sc2, mid2, k2, p2, s2⟩ := addCti_ok h2
  rcases k2 with ⟨k, -⟩ | ⟨_, k, k2⟩
  · cases k
  injection k with k; subst k
  rcases p2 with ⟨p, -⟩ | ⟨_, roe2, p, rfl, p2⟩
  · cases p
  injection p with p; subst p
  rw [hroe, hexp, Option.getD_some] at p2
  obtain ⟨r0, r1, hr0, hr1', nd1, m1⟩ := serialColumns_ok ht0 k1
  have hsc : ∃ sc, serialColumns (pw.resolve img.nr) (rangeAB t0 t1) o = .ok sc := by
    unfold serialColumns
    rw [rangeAB_head ht, rangeAB_last ht, hr0, hr1']
    exact ⟨_, rfl⟩
  obtain ⟨sc, k3⟩ := hsc
  obtain ⟨r0', r1'', e0, e1, nd, m⟩ := serialColumns_ok ht k3
  rw [hr0] at e0; rw [hr1'] at e1
  injection e0 with e0; injection e1 with e1
  subst e0 e1
  cases ser with
  | none =>
    rcases s1 with ⟨-, rfl, rfl⟩ | ⟨_, _, _, s, -⟩
    swap; · cases s
    rcases s2 with ⟨-, rfl, rfl⟩ | ⟨_, _, _, s, -⟩
    swap; · cases s
    rw [n1, n2] at p2
    obtain ⟨q1, q2⟩ := clockCharge_shape p2
    obtain ⟨out3, g1, g2, g3⟩ := clockCharge_split img out1 dp.ccd d i dp.groups o _ _ hrows hcols hnd ht0 ht1 p1
      n1 n2 (fun _ _ _ _ _ => rfl) p2
    obtain ⟨z1, z2⟩ := clockCharge_shape g1
    refine ⟨out3, ?_, by omega, by omega, fun r hr c hc => ?_⟩
    · rw [← hroe, ← hexp] at g1
      rw [addCti_par_time img dp o pw sw _ sc k3, g1]; rfl
    · by_cases hra : a ≤ r + o
      · exact g2 r (by omega) hra c (by omega)
      · obtain ⟨y1, y2⟩ := g3 r (by omega) (by omega) c
        rw [y1, y2]
  | some ds =>
    obtain ⟨dw, ef, f, j, hds⟩ := hser ds rfl
    rcases s1 with ⟨s, -⟩ | ⟨_, sroe1, res1, s, rfl, rfl, s1⟩
    · cases s
    injection s with s; subst s
    have hsr := s1
    rw [hds] at hsr
    have hsr := clockCharge_standard hsr
    rcases s2 with ⟨s, -⟩ | ⟨_, sroe2, res2, s, rfl, rfl, s2⟩
    · cases s
    injection s with s; subst s
    simp only at s2
    rw [hsr, ← hds] at s2
    obtain ⟨w1, w2⟩ := clockCharge_shape s1
    have hb : ds.roe.emptyBetween = true := by rw [hds]; rfl
    have hn1 : res1.transpose.nr = img.nr := w2.trans n1
    have hn2 : res1.transpose.nc = img.nc := w1.trans n2
    rw [hn1, hn2] at p2
    rw [hn2] at s2
    rw [hn1] at k2
    obtain ⟨r0', r1'', e0, e1, nd2, m2⟩ := serialColumns_ok ht1 k2
    rw [hr0] at e0; rw [hr1'] at e1
    injection e0 with e0; injection e1 with e1
    subst e0 e1
    have hlast : r1 < img.nr := hrows r1 (List.mem_of_getLast? hr1')
    obtain ⟨-, f1⟩ := C27_columns _ _ _ _ _ _ _ _ _ hb nd1 _ _ s1
    obtain ⟨mid3, g1, g2, g3⟩ := clockCharge_split img res1.transpose dp.ccd d i dp.groups o _ _ hrows hcols hnd
      ht0 ht1 p1 hn1 hn2 (fun r hr hra c hc => f1 r (fun h => by have := (m1 r).1 h; omega) c
        (by change c < mid1.nc; omega)) p2
    obtain ⟨z1, z2⟩ := clockCharge_shape g1
    obtain ⟨y1, y2⟩ := clockCharge_shape p2
    obtain ⟨res3, g4, g5⟩ := serial_combine mid1 mid2 mid3 ds hb _ sc1 sc2 sc nd1 nd2 nd
      (fun r => by rw [m, m1, m2]; omega) (fun r => r + o < a)
      (fun r hr => by have := (m1 r).1 hr; omega) (fun r hr => by have := (m2 r).1 hr; omega)
      ⟨by omega, by omega⟩ ⟨by omega, by omega⟩ (fun r hr => by have := (m r).1 hr; omega)
      (fun r hr he q hq => (g3 r (by omega) he q).1) (fun r hr he q hq => (g3 r (by omega) he q).2)
      (fun r hr he q hq => g2 r (by omega) (by omega) q (by omega)) s1 s2
    obtain ⟨x1, x2⟩ := clockCharge_shape g4
    obtain ⟨v1, v2⟩ := clockCharge_shape s2
    simp only [Image.transpose] at x1 x2 v1 v2 hn1 hn2 y1 y2
    refine ⟨res3.transpose, ?_, ?_, ?_, fun r hr c hc => ?_⟩
    · rw [addCti_both_time img dp ds o pw sw _ sc k3 (by rw [hroe, hexp]; exact g1) g4, hsr, ← hds, ← hroe]
    · simp only [Image.transpose]; omega
    · simp only [Image.transpose]; omega
    · simp only [Image.transpose] at hr hc
      exact g5 r (by omega) c (by omega)

/-- A readout split after two of three transfers (offset 1), in both directions: the two partial results. -/
example :
    ((addCti (exImg 2 2 [[90, 30], [20, 60]]) (some ⟨exCcd, .standard [1] true true true false, [exGroup], 0, 0⟩) 1 .all
      (some ⟨exCcd, .standard [1] true true true false, [exGroup], 0, 0⟩) .all (some (rangeAB 0 2))).map
        fun x => x.1.rows) = .ok [[6561 / 100, 955719 / 40000], [20767 / 800, 5373 / 100]] := by decide +kernel

example :
    ((addCti (exImg 2 2 [[6561 / 100, 955719 / 40000], [20767 / 800, 5373 / 100]])
      (some ⟨exCcd, .standard [1] true true true false, [exGroup], 0, 0⟩) 1 .all
      (some ⟨exCcd, .standard [1] true true true false, [exGroup], 0, 0⟩) .all (some (rangeAB 2 3))).map
        fun x => x.1.rows) = .ok [[6561 / 100, 955719 / 40000], [1682127 / 80000, 658667133 / 16000000]] := by
  decide +kernel

example :
    ((addCti (exImg 2 2 [[90, 30], [20, 60]]) (some ⟨exCcd, .standard [1] true true true false, [exGroup], 0, 0⟩) 1 .all
      (some ⟨exCcd, .standard [1] true true true false, [exGroup], 0, 0⟩) .all none).map
        fun x => x.1.rows) = .ok [[6561 / 100, 955719 / 40000], [1682127 / 80000, 658667133 / 16000000]] := by
  decide +kernel

/-- **C33**: the time window of a full readout is the default one, also for the rows to clock serially. -/
theorem C33_full_window (img : Image K) (par ser : Option (Direction K)) (o lo hi : ℕ) (sw : Window)
    (h1 : lo < hi) (h2 : hi ≤ img.nr) :
    addCti img par o (.range (rangeAB lo hi)) ser sw (some (rangeAB 0 (img.nr + o))) =
      addCti img par o (.range (rangeAB lo hi)) ser sw none := by
  have e1 : rangeAB 0 (img.nr + o) = List.range (img.nr + o) := by
    unfold rangeAB; rw [List.range_eq_range', Nat.sub_zero]
  have e2 : serialColumns (rangeAB lo hi) (rangeAB 0 (img.nr + o)) o = .ok (rangeAB lo hi) := by
    unfold serialColumns
    rw [rangeAB_head h1, rangeAB_last h1, rangeAB_head (by omega), rangeAB_last (by omega)]
    simp only
    congr 1
    unfold pyRange rangeAB
    rw [List.range'_eq_map_range]
    have : ((min ((hi - 1 : ℕ) : ℤ) (((img.nr + o - 1 : ℕ) : ℤ) - o) + 1) - max (lo : ℤ) (((0 : ℕ) : ℤ) - o)).toNat
        = hi - lo := by omega
    rw [this]
    refine List.map_congr_left fun q _ => ?_
    omega
  rw [e1] at e2 ⊢
  unfold addCti
  simp only [Window.resolve, Option.getD_some, Option.getD_none, e2]

/-- **C33**: two calls, up to some time and from then on, give the same image as one call without a time window. -/
theorem C33_default (img : Image K) (dp : Direction K) (ser : Option (Direction K)) (d : List K) (i : Bool)
    (hroe : dp.roe = .standard d true true true i) (hexp : dp.express = 0)
    (hser : ∀ ds, ser = some ds → ∃ dw ef f j, ds.roe = .standard dw ef true f j)
    (o lo hi : ℕ) (hlo : lo < hi) (hhi : hi ≤ img.nr) (sw : Window)
    (hcols : ∀ c ∈ sw.resolve img.nc, c < img.nc) (hnd : (sw.resolve img.nc).Nodup)
    (a : ℕ) (ht0 : 0 < a) (ht1 : a < img.nr + o)
    (out1 out2 : Image K) (par1 ser1 par2 ser2 : Option (Direction K))
    (h1 : addCti img (some dp) o (.range (rangeAB lo hi)) ser sw (some (rangeAB 0 a)) = .ok (out1, par1, ser1))
    (h2 : addCti out1 par1 o (.range (rangeAB lo hi)) ser1 sw (some (rangeAB a (img.nr + o))) =
      .ok (out2, par2, ser2)) :
    ∃ out, addCti img (some dp) o (.range (rangeAB lo hi)) ser sw none = .ok (out, some dp, ser) ∧
      out.nr = out2.nr ∧ out.nc = out2.nc ∧ ∀ r < out.nr, ∀ c < out.nc, out.px r c = out2.px r c := by
  obtain ⟨out, g1, g2⟩ := C33_split img dp ser d i hroe hexp hser o (.range (rangeAB lo hi)) sw
    (fun r hr => by
      have := (List.mem_range'_1.1 (show r ∈ List.range' lo (hi - lo) from hr))
      omega) hcols hnd 0 a (img.nr + o) ht0 ht1 out1 out2 par1 ser1 par2 ser2 h1 h2
  rw [C33_full_window img (some dp) ser o lo hi sw hlo hhi] at g1
  exact ⟨out, g1, g2⟩

/-- **C33 fails if traps are not emptied for the first transfers**: the state saved for the next pass is that at the
last row whose transfers fall into the time window. The second row gets 20767/800 from two calls and 21109/800 from
one. -/
theorem C33_saved_states_false :
    ((addCti (exImg 2 1 [[90], [20]]) (some ⟨exCcd, .standard [1] false true true false, [exGroup], 0, 0⟩) 0 .all
      none .all none).map fun x => x.1.px 1 0) = .ok (21109 / 800) ∧
    ((addCti (exImg 2 1 [[90], [20]]) (some ⟨exCcd, .standard [1] false true true false, [exGroup], 0, 0⟩) 0 .all
      none .all (some (rangeAB 0 1)) >>= fun x => addCti x.1 x.2.1 0 .all none .all (some (rangeAB 1 2))).map
        fun x => x.1.px 1 0) = .ok (20767 / 800) := by
  constructor <;> decide +kernel

/-- **C33 fails for `express = 1`** (as the documentation of `time_window_range` says it may): the third row gets
2853/64 from one call and 705897/16000 from two. -/
theorem C33_express_false :
    ((addCti (exImg 3 1 [[90], [20], [50]]) (some ⟨exCcd, .standard [1] true true true false, [exGroup], 1, 0⟩) 0 .all
      none .all none).map fun x => x.1.px 2 0) = .ok (2853 / 64) ∧
    ((addCti (exImg 3 1 [[90], [20], [50]]) (some ⟨exCcd, .standard [1] true true true false, [exGroup], 1, 0⟩) 0 .all
      none .all (some (rangeAB 0 1)) >>= fun x => addCti x.1 x.2.1 0 .all none .all (some (rangeAB 1 3))).map
        fun x => x.1.px 2 0) = .ok (705897 / 16000) := by
  constructor <;> decide +kernel

end Arctic
