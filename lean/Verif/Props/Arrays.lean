import Verif.Model.Arrays
import Verif.Props.Remove
import Verif.Props.ClockExamples

/-!
# C72: the arrays given to and returned by `add_cti` and `remove_cti`
-/

set_option linter.unusedSectionVars false
set_option linter.unusedVariables false

namespace Arctic

variable {K : Type} [Field K] [LinearOrder K] [IsStrictOrderedRing K] {α β γ δ : Type}

/-! ## Which buffers are changed -/

/-- The code, whether it returns or raises, leaves the first `k` buffers alone, and what it returns satisfies `P`. -/
def Act.Safe (k : ℕ) (x : Act K α) (P : α → Prop) : Prop :=
  ∀ m : Mem K, k ≤ m.length → k ≤ (x m).1.length ∧ (∀ i < k, (x m).1[i]? = m[i]?) ∧ ∀ a, (x m).2 = .ok a → P a

theorem Act.Safe.pure {k : ℕ} {a : α} {P : α → Prop} (h : P a) : Act.Safe k (pure a : Act K α) P :=
  fun m hm => ⟨hm, fun _ _ => rfl, fun b hb => by cases hb; exact h⟩

theorem Act.Safe.bind {k : ℕ} {x : Act K α} {f : α → Act K β} {P : α → Prop} {Q : β → Prop} (hx : x.Safe k P)
    (hf : ∀ a, P a → (f a).Safe k Q) : Act.Safe k (x >>= f) Q := by
  intro m hm
  obtain ⟨h1, h2, h3⟩ := hx m hm
  change k ≤ (match x m with | (m', .ok a) => f a m' | (m', .error e) => (m', .error e)).1.length ∧ (∀ i < k,
    (match x m with | (m', .ok a) => f a m' | (m', .error e) => (m', .error e)).1[i]? = m[i]?) ∧
    ∀ b, (match x m with | (m', .ok a) => f a m' | (m', .error e) => (m', .error e)).2 = .ok b → Q b
  rcases hxm : x m with ⟨m', e | a⟩ <;> rw [hxm] at h1 h2 h3
  · exact ⟨h1, h2, fun b hb => by cases hb⟩
  · obtain ⟨g1, g2, g3⟩ := hf a (h3 a rfl) m' h1
    exact ⟨g1, fun i hi => (g2 i hi).trans (h2 i hi), g3⟩

theorem Act.Safe.lift {k : ℕ} (x : Except Err α) : Act.Safe k (Act.lift x : Act K α) fun _ => True :=
  fun m hm => ⟨hm, fun _ _ => rfl, fun _ _ => trivial⟩

theorem Act.Safe.read {k : ℕ} (a : Arr) : Act.Safe k (a.read : Act K (Image K)) fun _ => True :=
  fun m hm => ⟨hm, fun _ _ => rfl, fun _ _ => trivial⟩

theorem Act.Safe.readDtype {k : ℕ} (a : Arr) : Act.Safe k (a.readDtype : Act K Dtype) fun _ => True :=
  fun m hm => ⟨hm, fun _ _ => rfl, fun _ _ => trivial⟩

theorem Act.Safe.alloc {k : ℕ} (b : Buf K) : Act.Safe k (alloc b) fun a => k ≤ a.addr := by
  intro m hm
  refine ⟨?_, fun i hi => ?_, fun a ha => ?_⟩
  · simp only [Arctic.alloc, List.length_append]; omega
  · simp only [Arctic.alloc]; rw [List.getElem?_append_left (by omega)]
  · cases ha; exact hm

theorem Act.Safe.write {k addr : ℕ} (h : k ≤ addr) (img : Image K) : Act.Safe k (writeBuf addr img) fun _ => True := by
  intro m hm
  refine ⟨?_, fun i hi => ?_, fun _ _ => trivial⟩
  · simpa [writeBuf] using hm
  · simp only [writeBuf]; rw [List.getElem?_set_ne (by omega)]

theorem Act.Safe.copy {k : ℕ} (a : Arr) : Act.Safe k (a.copy : Act K Arr) fun b => k ≤ b.addr :=
  (Act.Safe.read a).bind fun _ _ => (Act.Safe.readDtype a).bind fun _ _ => Act.Safe.alloc _

theorem clockArr_safe {k : ℕ} (a : Arr) (ccd : CcdView K) (roe : Roe K) (groups : List (Group K))
    (express offset : ℕ) (rows columns : List ℕ) (tw : Option (List ℕ)) :
    Act.Safe k (clockArr a ccd roe groups express offset rows columns tw) fun b => k ≤ b.1.addr := by
  unfold clockArr
  refine (Act.Safe.lift _).bind fun x _ => (Act.Safe.read a).bind fun img _ => (Act.Safe.readDtype a).bind fun t _ =>
    (Act.Safe.alloc _).bind fun b hb => ?_
  simp only
  split
  · refine (Act.Safe.lift _).bind fun y _ => ?_
    obtain ⟨out, s⟩ := y
    exact (Act.Safe.write hb _).bind fun _ _ => Act.Safe.pure hb
  · intro m hm
    exact ⟨hm, fun _ _ => rfl, fun b hb => by cases hb⟩

/-- The serial half of `add_cti`. -/
def serialHalfArr (ser : Option (Direction K)) (cols sc : List ℕ) (x : Arr) (p : Option (Direction K)) :
    Act K (Arr × Option (Direction K) × Option (Direction K)) :=
  match ser with
  | none => pure (x, p, none)
  | some d => x.T.copy >>= fun t =>
    clockArr t d.ccd d.roe d.groups d.express d.offset cols sc none >>= fun y => pure (y.1.T, p, some { d with roe := y.2 })

/-- Both halves of `add_cti`, for the copy of the image. -/
def bothHalvesArr (b : Arr) (par ser : Option (Direction K)) (o : ℕ) (rows cols tw sc : List ℕ) :
    Act K (Arr × Option (Direction K) × Option (Direction K)) :=
  match par with
  | none => serialHalfArr ser cols sc b none
  | some d => clockArr b d.ccd d.roe d.groups d.express o rows cols (some tw) >>= fun y =>
      serialHalfArr ser cols sc y.1 (some { d with roe := y.2 })

theorem Act.pure_bind (a : α) (f : α → Act K β) : (pure a >>= f) = f a := rfl

theorem Act.bind_assoc (x : Act K α) (f : α → Act K β) (g : β → Act K γ) :
    (x >>= f >>= g) = (x >>= fun a => f a >>= g) := by
  funext m
  change (match (match x m with | (m', .ok a) => f a m' | (m', .error e) => (m', .error e)) with
    | (m', .ok a) => g a m' | (m', .error e) => (m', .error e)) = (match x m with
    | (m', .ok a) => (match f a m' with | (m', .ok a) => g a m' | (m', .error e) => (m', .error e))
    | (m', .error e) => (m', .error e))
  rcases x m with ⟨m', e | a⟩ <;> rfl

theorem addCtiArr_halves (a : Arr) (par ser : Option (Direction K)) (o : ℕ) (pw sw : Window) (tw : Option (List ℕ)) :
    addCtiArr a par o pw ser sw tw = a.read >>= fun i => Act.lift (match tw with
      | none => .ok (pw.resolve i.nr)
      | some t => serialColumns (pw.resolve i.nr) t o) >>= fun sc => a.copy >>= fun b =>
        bothHalvesArr b par ser o (pw.resolve i.nr) (sw.resolve i.nc) (tw.getD (List.range (i.nr + o))) sc := by
  cases tw <;> cases par <;> cases ser <;> rfl

theorem serialHalfArr_safe {k : ℕ} (ser : Option (Direction K)) (cols sc : List ℕ) (x : Arr) (p : Option (Direction K))
    (hx : k ≤ x.addr) : Act.Safe k (serialHalfArr ser cols sc x p) fun b => k ≤ b.1.addr := by
  cases ser with
  | none => exact Act.Safe.pure hx
  | some d =>
    exact (Act.Safe.copy _).bind fun t _ => (clockArr_safe t d.ccd d.roe d.groups d.express _ _ _ _).bind fun z hz =>
      Act.Safe.pure hz

theorem addCtiArr_safe {k : ℕ} (a : Arr) (par : Option (Direction K)) (o : ℕ) (pw : Window) (ser : Option (Direction K))
    (sw : Window) (tw : Option (List ℕ)) :
    Act.Safe k (addCtiArr a par o pw ser sw tw) fun b => k ≤ b.1.addr := by
  rw [addCtiArr_halves]
  refine (Act.Safe.read a).bind fun shape _ => (Act.Safe.lift _).bind fun sc _ => (Act.Safe.copy a).bind fun b hb => ?_
  cases par with
  | none => exact serialHalfArr_safe _ _ _ _ _ hb
  | some d =>
    exact (clockArr_safe b d.ccd d.roe d.groups d.express _ _ _ _).bind fun y hy => serialHalfArr_safe _ _ _ _ _ hy

theorem removeCtiArr_safe {k : ℕ} (store : Dtype → K → K) (a : Arr) (n : ℕ) (par : Option (Direction K)) (o : ℕ)
    (pw : Window) (ser : Option (Direction K)) (sw : Window) (tw : Option (List ℕ)) :
    Act.Safe k (removeCtiArr store a n par o pw ser sw tw) fun b => k ≤ b.1.addr := by
  unfold removeCtiArr
  refine (Act.Safe.copy a).bind fun cur hc => ?_
  refine Act.Safe.bind (P := fun _ => True) ?_ fun s _ => Act.Safe.pure hc
  generalize (par, ser) = s
  induction n generalizing s with
  | zero => exact Act.Safe.pure trivial
  | succ n ih =>
    unfold removeLoop
    refine (addCtiArr_safe _ _ _ _ _ _ _).bind fun x _ => Act.Safe.bind (P := fun _ => True) ?_ fun _ _ => ih _
    unfold Arr.improve
    exact (Act.Safe.read _).bind fun _ _ => (Act.Safe.read _).bind fun _ _ => (Act.Safe.readDtype _).bind fun _ _ =>
      (Act.Safe.readDtype _).bind fun _ _ => (Act.Safe.lift _).bind fun _ _ => (Act.Safe.alloc _).bind fun _ _ =>
      (Act.Safe.readDtype _).bind fun _ _ => (Act.Safe.read _).bind fun _ _ => (Act.Safe.read _).bind fun _ _ =>
      (Act.Safe.lift _).bind fun _ _ => Act.Safe.write hc _

/-- **C72**: `add_cti` changes no array that existed before, also if it raises, and returns an array with memory of its own. -/
theorem C72_add_own (m : Mem K) (a : Arr) (par : Option (Direction K)) (o : ℕ) (pw : Window) (ser : Option (Direction K))
    (sw : Window) (tw : Option (List ℕ)) :
    (∀ i < m.length, (addCtiArr a par o pw ser sw tw m).1[i]? = m[i]?) ∧
      ∀ out, (addCtiArr a par o pw ser sw tw m).2 = .ok out → m.length ≤ out.1.addr :=
  (addCtiArr_safe (k := m.length) a par o pw ser sw tw m le_rfl).2

/-- **C72**: nor does `remove_cti`. -/
theorem C72_remove_own (store : Dtype → K → K) (m : Mem K) (a : Arr) (n : ℕ) (par : Option (Direction K)) (o : ℕ)
    (pw : Window) (ser : Option (Direction K)) (sw : Window) (tw : Option (List ℕ)) :
    (∀ i < m.length, (removeCtiArr store a n par o pw ser sw tw m).1[i]? = m[i]?) ∧
      ∀ out, (removeCtiArr store a n par o pw ser sw tw m).2 = .ok out → m.length ≤ out.1.addr :=
  (removeCtiArr_safe (k := m.length) store a n par o pw ser sw tw m le_rfl).2

/-! ## What is computed -/

theorem Act.bind_apply (x : Act K α) (f : α → Act K β) (m : Mem K) :
    (x >>= f) m = match (x m).2 with
      | .ok a => f a (x m).1
      | .error e => ((x m).1, .error e) := by
  change (match x m with | (m', .ok a) => f a m' | (m', .error e) => (m', .error e)) = _
  rcases x m with ⟨m', e | a⟩ <;> rfl

theorem Act.pure_apply (a : α) (m : Mem K) : (pure a : Act K α) m = (m, .ok a) := rfl

/-- The code does with arrays what `y` does with values. -/
def Act.Agrees (x : Act K α) (m : Mem K) (y : Except Err β) (R : Mem K → α → β → Prop) : Prop :=
  ExRel (R (x m).1) (x m).2 y

theorem Act.Agrees.bind {x : Act K α} {m : Mem K} {y : Except Err β} {R : Mem K → α → β → Prop} {f : α → Act K γ}
    {g : β → Except Err δ} {R' : Mem K → γ → δ → Prop} (h : x.Agrees m y R)
    (hf : ∀ m' a b, R m' a b → (f a).Agrees m' (g b) R') : (x >>= f).Agrees m (y >>= g) R' := by
  unfold Act.Agrees at h ⊢
  rw [Act.bind_apply]
  generalize x m = r at h
  obtain ⟨m', e | a⟩ := r <;> rcases y with e' | b
  · exact h
  · exact h.elim
  · exact h.elim
  · exact hf m' a b h

theorem Act.Agrees.step {x : Act K α} {m m' : Mem K} {a : α} {f : α → Act K β} {y : Except Err γ} {R : Mem K → β → γ → Prop}
    (hx : x m = (m', .ok a)) (h : (f a).Agrees m' y R) : (x >>= f).Agrees m y R := by
  unfold Act.Agrees at h ⊢
  rw [Act.bind_apply, hx]
  exact h

theorem Act.Agrees.lift {m : Mem K} {x : Except Err α} {R : Mem K → α → α → Prop} (h : ∀ a, R m a a) :
    (Act.lift x : Act K α).Agrees m x R := ExRel.refl (fun a => h a) x

/-- A memory with more buffers. -/
def Mem.Extends (m' m : Mem K) : Prop := ∀ i < m.length, m'[i]? = m[i]?

theorem Mem.Extends.buf {m' m : Mem K} (h : m'.Extends m) {i : ℕ} (hi : i < m.length) : m'.buf i = m.buf i := by
  unfold Mem.buf
  rw [List.getD_eq_getElem?_getD, List.getD_eq_getElem?_getD, h i hi]

theorem Mem.Extends.image {m' m : Mem K} (h : m'.Extends m) {a : Arr} (ha : a.addr < m.length) : a.image m' = a.image m := by
  unfold Arr.image; rw [h.buf ha]

theorem Mem.Extends.dtype {m' m : Mem K} (h : m'.Extends m) {a : Arr} (ha : a.addr < m.length) : a.dtype m' = a.dtype m := by
  unfold Arr.dtype; rw [h.buf ha]

theorem alloc_buf (m : Mem K) (b : Buf K) : Mem.buf (m ++ [b]) m.length = b := by
  unfold Mem.buf
  rw [List.getD_eq_getElem?_getD]
  simp

theorem set_buf (m : Mem K) (i : ℕ) (b : Buf K) (h : i < m.length) : Mem.buf (m.set i b) i = b := by
  unfold Mem.buf
  rw [List.getD_eq_getElem?_getD, List.getElem?_set_self h]
  rfl

/-- One direction. -/
theorem clockArr_agrees (m : Mem K) (a : Arr) (ht : (a.dtype m).withFloat64 = .float64) (ccd : CcdView K) (roe : Roe K)
    (groups : List (Group K)) (express offset : ℕ) (rows columns : List ℕ) (tw : Option (List ℕ)) :
    (clockArr a ccd roe groups express offset rows columns tw).Agrees m
      (clockCharge (a.image m) ccd roe groups express offset rows columns tw)
      fun m' x y => x.1.image m' = y.1 ∧ x.1.dtype m' = .float64 ∧ x.2 = y.2 := by
  unfold clockArr clockCharge
  cases clockCfg roe ccd express offset rows tw with
  | error e => exact rfl
  | ok y =>
  obtain ⟨cfg, roe'⟩ := y
  simp only [bind_ok]
  unfold Act.Agrees
  simp only [Act.bind_apply, Arr.read, Arr.readDtype, alloc, ht, if_true, Act.lift]
  generalize clockLoops (atmSys ccd.fill) cfg columns ((a.image m).pad (nPadding roe.accessed),
    ATM.new groups ccd.fractions (maxNTransfers roe cfg)) = z
  rcases z with e | x
  · exact rfl
  · simp only [writeBuf, bind_ok, Act.pure_apply]
    refine ⟨?_, ?_, rfl⟩
    · have := set_buf (m ++ [⟨.float64, (a.image m).pad (nPadding roe.accessed)⟩]) m.length
        ⟨(Mem.buf (m ++ [⟨.float64, (a.image m).pad (nPadding roe.accessed)⟩]) m.length).dtype, x.1⟩ (by simp)
      change Image.unpad (Mem.buf _ m.length).img _ = _
      rw [this]
    · change (Mem.buf _ m.length).dtype = _
      rw [set_buf _ _ _ (by simp), alloc_buf]

/-- The state of an array after a call that leaves the first buffers alone. -/
theorem Act.Safe.extends {x : Act K α} {P : α → Prop} {m : Mem K} (h : Act.Safe m.length x P) : (x m).1.Extends m :=
  (h m le_rfl).2.1

theorem Arr.copy_apply (a : Arr) (m : Mem K) :
    (a.copy : Act K Arr) m = (m ++ [⟨a.dtype m, a.image m⟩], .ok ⟨m.length, 0, false⟩) := rfl

theorem copy_image (m : Mem K) (t : Dtype) (i : Image K) :
    Arr.image ⟨m.length, 0, false⟩ (m ++ [⟨t, i⟩]) = i := by
  unfold Arr.image
  rw [alloc_buf]
  rfl

theorem copy_dtype (m : Mem K) (t : Dtype) (i : Image K) :
    Arr.dtype ⟨m.length, 0, false⟩ (m ++ [⟨t, i⟩]) = t := by
  unfold Arr.dtype
  rw [alloc_buf]

theorem Arr.T_image (a : Arr) (m : Mem K) : a.T.image m = (a.image m).transpose := by
  unfold Arr.T Arr.image
  cases a.transposed <;> rfl

/-- `add_cti`, for the types it supports: the image computed by value, in an array of type `float64` (of the type of the image if there
are no traps). -/
theorem C72_add (m : Mem K) (a : Arr) (par ser : Option (Direction K))
    (ht : (par = none ∧ ser = none) ∨ (a.dtype m).withFloat64 = .float64) (o : ℕ) (pw sw : Window) (tw : Option (List ℕ)) :
    (addCtiArr a par o pw ser sw tw).Agrees m (addCti (a.image m) par o pw ser sw tw)
      fun m' x y => x.1.image m' = y.1 ∧ x.2 = y.2 ∧
        x.1.dtype m' = if par = none ∧ ser = none then a.dtype m else .float64 := by
  rw [addCtiArr_halves, addCti_halves]
  generalize hI : a.image m = I
  refine Act.Agrees.step (m' := m) (a := I) (by rw [← hI]; rfl) ?_
  have hsc := Act.Agrees.lift (m := m) (x := (match tw with
      | none => .ok (pw.resolve I.nr)
      | some t => serialColumns (pw.resolve I.nr) t o : Except Err (List ℕ))) (R := fun m' x y => m' = m ∧ x = y)
    fun _ => ⟨rfl, rfl⟩
  refine Act.Agrees.bind hsc ?_
  rintro m' sc _ ⟨hm, rfl⟩
  rw [hm]
  refine Act.Agrees.step (a.copy_apply m) ?_
  rw [hI]
  have hser : ∀ (m'' : Mem K) (x : Arr) (p : Option (Direction K)) (y : Image K), x.image m'' = y →
      (x.dtype m'' = if par = none then a.dtype m else .float64) →
      (serialHalfArr ser (sw.resolve I.nc) sc x p).Agrees m'' (serialHalf ser (sw.resolve I.nc) sc (y, p))
      fun m' x y => x.1.image m' = y.1 ∧ x.2 = y.2 ∧
        x.1.dtype m' = if par = none ∧ ser = none then a.dtype m else .float64 := by
    intro m'' x p y h1 h3
    cases ser with
    | none => exact ⟨h1, rfl, (show x.dtype m'' = _ from h3).trans (by simp)⟩
    | some d =>
      have ht' := ht.resolve_left (by simp)
      have h4 : (x.T.dtype m'').withFloat64 = .float64 := by
        change (x.dtype m'').withFloat64 = _
        rw [h3]; split
        · exact ht'
        · rfl
      refine Act.Agrees.step (x.T.copy_apply m'') ?_
      have h := clockArr_agrees (m'' ++ [⟨x.T.dtype m'', x.T.image m''⟩]) ⟨m''.length, 0, false⟩ (by rw [copy_dtype]; exact h4) d.ccd
        d.roe d.groups d.express d.offset (sw.resolve I.nc) sc none
      rw [copy_image, Arr.T_image, h1] at h
      rw [Arr.T_image, h1]
      refine Act.Agrees.bind h ?_
      rintro m3 ⟨z, r⟩ ⟨w, r'⟩ ⟨g1, g2, g3⟩
      cases g3
      refine ⟨?_, rfl, (show z.dtype m3 = _ from g2).trans (by simp)⟩
      rw [Act.pure_apply]
      simp only [Arr.T_image]
      exact congrArg Image.transpose g1
  cases par with
  | none => exact hser _ _ _ _ (copy_image _ _ _) (by rw [copy_dtype]; simp)
  | some d =>
    have ht' := ht.resolve_left (by simp)
    have h := clockArr_agrees (m ++ [⟨a.dtype m, I⟩]) ⟨m.length, 0, false⟩ (by rw [copy_dtype]; exact ht') d.ccd
      d.roe d.groups d.express o (pw.resolve I.nr) (sw.resolve I.nc) (some (tw.getD (List.range (I.nr + o))))
    rw [copy_image] at h
    refine Act.Agrees.bind h ?_
    rintro m'' ⟨x, r⟩ ⟨y, r'⟩ ⟨h1, h2, h3⟩
    cases h3
    exact hser _ _ _ _ h1 (by simpa using h2)

/-! ### `remove_cti` -/

/-- The iteration of `remove_cti` with the difference rounded by `g` and the sum by `f`. -/
def roundedIter {S : Type} (f g : K → K) (add : Image K → S → Except Err (Image K × S)) (img : Image K) :
    ℕ → Image K × S → Except Err (Image K × S)
  | 0, st => .ok st
  | n + 1, st => add st.1 st.2 >>= fun x =>
    roundedIter f g add img n ({ st.1 with px := fun r c => f (st.1.px r c + g (img.px r c - x.1.px r c)) }, x.2)

theorem roundedIter_id {S : Type} (add : Image K → S → Except Err (Image K × S)) (img : Image K) (n : ℕ) (st : Image K × S) :
    roundedIter id id add img n st = removeIter add img n st := by
  induction n generalizing st with
  | zero => rfl
  | succ n ih =>
    obtain ⟨i, s⟩ := st
    unfold roundedIter removeIter
    simp only [ih]
    rfl

/-- The types of the readout objects: there are traps or not, before and after. -/
theorem addCti_none (img : Image K) (par ser : Option (Direction K)) (o : ℕ) (pw sw : Window) (tw : Option (List ℕ))
    {x : Image K × Option (Direction K) × Option (Direction K)} (h : addCti img par o pw ser sw tw = .ok x) :
    (x.2.1 = none ↔ par = none) ∧ (x.2.2 = none ↔ ser = none) := by
  rw [addCti_halves] at h
  obtain ⟨sc, -, h⟩ := bind_eq_ok h
  have hser : ∀ a p, serialHalf ser (sw.resolve img.nc) sc (a, p) = .ok x → x.2.1 = p ∧ (x.2.2 = none ↔ ser = none) := by
    intro a p h
    cases ser with
    | none => cases h; exact ⟨rfl, by simp⟩
    | some d =>
      obtain ⟨y, -, h⟩ := bind_eq_ok h
      cases h; exact ⟨rfl, by simp⟩
  cases par with
  | none =>
    obtain ⟨h1, h2⟩ := hser _ _ h
    exact ⟨by simp [h1], h2⟩
  | some d =>
    obtain ⟨y, -, h⟩ := bind_eq_ok h
    obtain ⟨h1, h2⟩ := hser _ _ h
    exact ⟨by simp [h1], h2⟩

theorem append_image (m : Mem K) (b : Buf K) (a : Arr) (h : a.addr < m.length) : a.image (m ++ [b]) = a.image m :=
  Mem.Extends.image (fun i hi => List.getElem?_append_left hi) h

theorem append_dtype (m : Mem K) (b : Buf K) (a : Arr) (h : a.addr < m.length) : a.dtype (m ++ [b]) = a.dtype m :=
  Mem.Extends.dtype (fun i hi => List.getElem?_append_left hi) h

theorem Mem.buf_set_ne (m : Mem K) (i j : ℕ) (b : Buf K) (h : i ≠ j) : Mem.buf (m.set i b) j = m.buf j := by
  unfold Mem.buf
  rw [List.getD_eq_getElem?_getD, List.getD_eq_getElem?_getD, List.getElem?_set_ne h]

/-- The line of the update. -/
theorem improve_apply (store : Dtype → K → K) (m : Mem K) (cur image added : Arr) (hc : cur.addr < m.length) {v : Dtype}
    (hs : (image.dtype m).subtract (added.dtype m) = .ok v) (ha : (cur.dtype m).addInPlace v = .ok ()) :
    (cur.improve store image added) m = (List.set (m ++ [(⟨v, { image.image m with
      px := fun r c => store v ((image.image m).px r c - (added.image m).px r c) }⟩ : Buf K)]) cur.addr
        ⟨cur.dtype m, ⟨(cur.image m).nr, (cur.image m).nc, fun r c =>
          store (cur.dtype m) ((cur.image m).px r c + store v ((image.image m).px r c - (added.image m).px r c))⟩⟩, .ok ()) := by
  unfold Arr.improve
  simp only [Act.bind_apply, Arr.read, Arr.readDtype, Act.lift, hs, alloc, append_dtype _ _ _ hc, ha, append_image _ _ _ hc,
    copy_image, writeBuf]
  congr 2
  have := append_dtype m ⟨v, { image.image m with
      px := fun r c => store v ((image.image m).px r c - (added.image m).px r c) }⟩ cur hc
  exact congrArg (fun d => (⟨d, _⟩ : Buf K)) this

/-- The loop of `remove_cti`. -/
theorem removeLoop_agrees (store : Dtype → K → K) (image : Arr) (c : ℕ) (I : Image K) (t v : Dtype) (none' : Prop) [Decidable none']
    (ht : none' ∨ t.withFloat64 = .float64) (hs : t.subtract (if none' then t else .float64) = .ok v)
    (ha : t.addInPlace v = .ok ()) (hi : image.addr < c) (o : ℕ) (pw sw : Window) (tw : Option (List ℕ)) (n : ℕ) (m : Mem K)
    (hc : c < m.length) (X : Image K) (s : Option (Direction K) × Option (Direction K)) (hn : none' ↔ s.1 = none ∧ s.2 = none)
    (h1 : image.image m = I) (h2 : image.dtype m = t) (h3 : Arr.image ⟨c, 0, false⟩ m = X) (h4 : Arr.dtype ⟨c, 0, false⟩ m = t) :
    (removeLoop store image ⟨c, 0, false⟩ o pw sw tw n s).Agrees m
      (roundedIter (store t) (store v) (fun cur s => addCti cur s.1 o pw s.2 sw tw) I n (X, s))
      fun m' x y => x = y.2 ∧ Arr.image ⟨c, 0, false⟩ m' = y.1 ∧ Arr.dtype ⟨c, 0, false⟩ m' = t := by
  induction n generalizing m X s with
  | zero => exact ⟨rfl, h3, h4⟩
  | succ n ih =>
    have hadd := C72_add m ⟨c, 0, false⟩ s.1 s.2 (by rw [h4, ← hn]; exact ht) o pw sw tw
    have hsafe := addCtiArr_safe (k := m.length) ⟨c, 0, false⟩ s.1 o pw s.2 sw tw m le_rfl
    have hnone : ∀ x, addCti X s.1 o pw s.2 sw tw = .ok x → (none' ↔ x.2.1 = none ∧ x.2.2 = none) := by
      intro x hx
      obtain ⟨g1, g2⟩ := addCti_none _ _ _ _ _ _ _ hx
      rw [hn, g1, g2]
    rw [h3] at hadd
    unfold removeLoop roundedIter
    simp only
    unfold Act.Agrees at hadd
    rcases hr : addCtiArr ⟨c, 0, false⟩ s.1 o pw s.2 sw tw m with ⟨m1, e | x⟩ <;>
      rcases hq : addCti X s.1 o pw s.2 sw tw with e' | y <;> rw [hr, hq] at hadd
    · unfold Act.Agrees
      rw [Act.bind_apply, hr]
      exact hadd
    · exact hadd.elim
    · exact hadd.elim
    · obtain ⟨g1, g2, g3⟩ := hadd
      rw [hr] at hsafe
      obtain ⟨k1, k2, k3⟩ := hsafe
      simp only at g1 g2 g3 k1 k2 k3
      have hext : m1.Extends m := k2
      have e1 : image.image m1 = I := (hext.image (hi.trans hc)).trans h1
      have e2 : image.dtype m1 = t := (hext.dtype (hi.trans hc)).trans h2
      have e3 : Arr.image ⟨c, 0, false⟩ m1 = X := (hext.image (a := ⟨c, 0, false⟩) hc).trans h3
      have e4 : Arr.dtype ⟨c, 0, false⟩ m1 = t := (hext.dtype (a := ⟨c, 0, false⟩) hc).trans h4
      have hc1 : c < m1.length := lt_of_lt_of_le hc k1
      have hstep := improve_apply store m1 ⟨c, 0, false⟩ image x.1 hc1 (v := v) (by
        rw [e2, g3, h4]
        rw [← hs]
        congr 1
        simp only [hn]) (by rw [e4]; exact ha)
      refine Act.Agrees.step hr (Act.Agrees.step hstep ?_)
      rw [e1, e3, e4, g1, g2, bind_ok]
      refine ih _ (by simpa using hc1.trans (Nat.lt_succ_self _)) _ _ ?_ ?_ ?_ ?_ ?_
      · exact hnone y hq
      · unfold Arr.image
        rw [Mem.buf_set_ne _ _ _ _ (by simpa using (ne_of_gt hi))]
        exact (append_image m1 _ image ((hi.trans hc1))).trans e1
      · unfold Arr.dtype
        rw [Mem.buf_set_ne _ _ _ _ (by simpa using (ne_of_gt hi))]
        exact (append_dtype m1 _ image ((hi.trans hc1))).trans e2
      · unfold Arr.image
        rw [set_buf _ _ _ (by simpa using hc1.trans (Nat.lt_succ_self _))]
        rfl
      · unfold Arr.dtype
        rw [set_buf _ _ _ (by simpa using hc1.trans (Nat.lt_succ_self _))]

/-- `remove_cti` for a type of image for which nothing raises. -/
theorem removeCtiArr_agrees (store : Dtype → K → K) (m : Mem K) (a : Arr) (ha : a.addr < m.length) (par ser : Option (Direction K))
    (v : Dtype) (ht : (par = none ∧ ser = none) ∨ (a.dtype m).withFloat64 = .float64)
    (hs : (a.dtype m).subtract (if par = none ∧ ser = none then a.dtype m else .float64) = .ok v)
    (hadd : (a.dtype m).addInPlace v = .ok ()) (n o : ℕ) (pw sw : Window) (tw : Option (List ℕ)) :
    (removeCtiArr store a n par o pw ser sw tw).Agrees m
      (roundedIter (store (a.dtype m)) (store v) (fun cur s => addCti cur s.1 o pw s.2 sw tw) (a.image m) n (a.image m, par, ser))
      fun m' x y => x.1.image m' = y.1 ∧ x.2 = y.2 ∧ x.1.dtype m' = a.dtype m := by
  unfold removeCtiArr
  refine Act.Agrees.step (a.copy_apply m) ?_
  have h := removeLoop_agrees store a m.length (a.image m) (a.dtype m) v (par = none ∧ ser = none) ht hs hadd ha o pw sw tw n
    (m ++ [⟨a.dtype m, a.image m⟩]) (by simp) (a.image m) (par, ser) Iff.rfl (append_image _ _ _ ha) (append_dtype _ _ _ ha)
    (copy_image _ _ _) (copy_dtype _ _ _)
  have hb : roundedIter (store (a.dtype m)) (store v) (fun cur s => addCti cur s.1 o pw s.2 sw tw) (a.image m) n (a.image m, par, ser)
      = roundedIter (store (a.dtype m)) (store v) (fun cur s => addCti cur s.1 o pw s.2 sw tw) (a.image m) n (a.image m, par, ser)
        >>= .ok := by
    cases roundedIter (store (a.dtype m)) (store v) (fun cur s => addCti cur s.1 o pw s.2 sw tw) (a.image m) n (a.image m, par, ser)
      <;> rfl
  rw [hb]
  refine Act.Agrees.bind h ?_
  rintro m' x y ⟨h1, h2, h3⟩
  exact ⟨h2, h1, h3⟩

/-- **C72**: an image of type `float64` — what `remove_cti` computes by value. -/
theorem C72_remove (store : Dtype → K → K) (h64 : store .float64 = id) (m : Mem K) (a : Arr) (ha : a.addr < m.length)
    (ht : a.dtype m = .float64) (par ser : Option (Direction K)) (n o : ℕ) (pw sw : Window) (tw : Option (List ℕ)) :
    (removeCtiArr store a n par o pw ser sw tw).Agrees m (removeCti (a.image m) n par o pw ser sw tw)
      fun m' x y => x.1.image m' = y.1 ∧ x.2 = y.2 ∧ x.1.dtype m' = .float64 := by
  have h := removeCtiArr_agrees store m a ha par ser .float64 (Or.inr (by rw [ht]; rfl)) (by rw [ht]; split <;> rfl) (by rw [ht]; rfl)
    n o pw sw tw
  rw [ht, h64, roundedIter_id] at h
  exact h

/-- **C72**: an image of type `float32` — the difference is computed in double precision, each new estimate is rounded to single
precision, and the type stays. -/
theorem C72_remove_float32 (store : Dtype → K → K) (h64 : store .float64 = id) (m : Mem K) (a : Arr) (ha : a.addr < m.length)
    (ht : a.dtype m = .float32) (par ser : Option (Direction K)) (htr : ¬(par = none ∧ ser = none)) (n o : ℕ) (pw sw : Window)
    (tw : Option (List ℕ)) :
    (removeCtiArr store a n par o pw ser sw tw).Agrees m
      (roundedIter (store .float32) id (fun cur s => addCti cur s.1 o pw s.2 sw tw) (a.image m) n (a.image m, par, ser))
      fun m' x y => x.1.image m' = y.1 ∧ x.2 = y.2 ∧ x.1.dtype m' = .float32 := by
  have h := removeCtiArr_agrees store m a ha par ser .float64 (Or.inr (by rw [ht]; rfl)) (by rw [ht, if_neg htr]; rfl) (by rw [ht]; rfl)
    n o pw sw tw
  rw [ht, h64] at h
  exact h

/-- **C72**: an image of booleans or integers, with traps — one call of `add_cti`, then `TypeError`; nothing is ever returned. -/
theorem C72_remove_int (store : Dtype → K → K) (m : Mem K) (a : Arr) (ha : a.addr < m.length)
    (ht : a.dtype m = .bool ∨ a.dtype m = .int) (par ser : Option (Direction K)) (htr : ¬(par = none ∧ ser = none)) (n o : ℕ)
    (pw sw : Window) (tw : Option (List ℕ)) :
    (removeCtiArr store a (n + 1) par o pw ser sw tw m).2 =
      (addCti (a.image m) par o pw ser sw tw >>= fun _ => .error .typeError) := by
  have hw : (a.dtype m).withFloat64 = .float64 := by rcases ht with h | h <;> rw [h] <;> rfl
  unfold removeCtiArr
  rw [Act.bind_apply, Arr.copy_apply]
  simp only
  generalize hm1 : m ++ [(⟨a.dtype m, a.image m⟩ : Buf K)] = m1
  have hi : Arr.image ⟨m.length, 0, false⟩ m1 = a.image m := by rw [← hm1]; exact copy_image _ _ _
  have hd : Arr.dtype ⟨m.length, 0, false⟩ m1 = a.dtype m := by rw [← hm1]; exact copy_dtype _ _ _
  have hlen : m.length < m1.length := by rw [← hm1]; simp
  have hda : a.dtype m1 = a.dtype m := by rw [← hm1]; exact append_dtype _ _ _ ha
  have hadd := C72_add m1 ⟨m.length, 0, false⟩ par ser (Or.inr (by rw [hd]; exact hw)) o pw sw tw
  have hsafe := addCtiArr_safe (k := m1.length) ⟨m.length, 0, false⟩ par o pw ser sw tw m1 le_rfl
  rw [hi, if_neg htr] at hadd
  unfold removeLoop
  unfold Act.Agrees at hadd
  rw [Act.bind_apply, Act.bind_apply]
  generalize addCtiArr ⟨m.length, 0, false⟩ par o pw ser sw tw m1 = r at hadd hsafe
  generalize addCti (a.image m) par o pw ser sw tw = q at hadd
  obtain ⟨m2, e | x⟩ := r <;> rcases q with e' | y
  · exact congrArg _ hadd
  · exact hadd.elim
  · exact hadd.elim
  · obtain ⟨-, -, g3⟩ := hadd
    obtain ⟨k1, k2, -⟩ := hsafe
    simp only at g3 k1 k2
    have hext : m2.Extends m1 := k2
    have e2 : a.dtype m2 = a.dtype m := (hext.dtype (ha.trans hlen)).trans hda
    have e4 : Arr.dtype ⟨m.length, 0, false⟩ m2 = a.dtype m := (hext.dtype (a := ⟨m.length, 0, false⟩) hlen).trans hd
    have hs : (a.dtype m).subtract .float64 = .ok .float64 := by rcases ht with h | h <;> rw [h] <;> rfl
    have hn : (a.dtype m).addInPlace .float64 = .error .typeError := by rcases ht with h | h <;> rw [h] <;> rfl
    have : ((Arr.improve store ⟨m.length, 0, false⟩ a x.1) m2).2 = .error .typeError := by
      unfold Arr.improve
      simp only [Act.bind_apply, Arr.read, Arr.readDtype, Act.lift, e2, g3, hs, alloc,
        append_dtype _ _ ⟨m.length, 0, false⟩ (lt_of_lt_of_le hlen k1), e4, hn]
    simp only [Act.bind_apply, this]
    rfl

/-- **C72**: without traps, an image of any type but boolean comes back as it is (its values are those of its type). -/
theorem C72_remove_no_traps (store : Dtype → K → K) (m : Mem K) (a : Arr) (ha : a.addr < m.length) (hb : a.dtype m ≠ .bool)
    (h0 : store (a.dtype m) 0 = 0) (hst : ∀ r c, store (a.dtype m) ((a.image m).px r c) = (a.image m).px r c) (n o : ℕ)
    (pw sw : Window) :
    ∃ m' b, removeCtiArr store a n none o pw none sw none m = (m', .ok (b, none, none)) ∧ b.image m' = a.image m ∧
      b.dtype m' = a.dtype m := by
  have h := removeCtiArr_agrees store m a ha none none (a.dtype m) (Or.inl ⟨rfl, rfl⟩)
    (by rw [if_pos ⟨rfl, rfl⟩]; unfold Dtype.subtract; rw [if_pos rfl, if_neg hb]) (by unfold Dtype.addInPlace; rw [if_pos rfl])
    n o pw sw none
  have hv : ∀ n, roundedIter (store (a.dtype m)) (store (a.dtype m)) (fun cur s => addCti cur s.1 o pw s.2 sw none) (a.image m) n
      (a.image m, none, none) = .ok (a.image m, none, none) := by
    intro n
    induction n with
    | zero => rfl
    | succ n ih =>
      unfold roundedIter
      rw [show addCti (a.image m) none o pw none sw none = .ok (a.image m, none, none) from rfl, bind_ok]
      simp only [sub_self, h0, add_zero, hst]
      exact ih
  rw [hv] at h
  unfold Act.Agrees at h
  generalize removeCtiArr store a n none o pw none sw none m = r at h
  obtain ⟨m', e | ⟨b, x⟩⟩ := r
  · exact h.elim
  · obtain ⟨h1, h2, h3⟩ := h
    simp only at h2
    subst h2
    exact ⟨m', b, rfl, h1, h3⟩

/-- **C72**: booleans cannot be subtracted, so with booleans the first iteration raises also without traps. -/
theorem C72_remove_bool (store : Dtype → K → K) (m : Mem K) (a : Arr) (ha : a.addr < m.length) (hb : a.dtype m = .bool) (n o : ℕ)
    (pw sw : Window) : (removeCtiArr store a (n + 1) none o pw none sw none m).2 = .error .typeError := by
  unfold removeCtiArr removeLoop Arr.improve addCtiArr
  simp only [Act.bind_apply, Arr.copy_apply, Arr.read, Act.lift, Act.pure_apply, Arr.readDtype, copy_dtype, hb,
    append_dtype _ _ a (show a.addr < (m ++ [_]).length by simp; omega), append_dtype _ _ a ha]
  rfl

/-- **C72**: `longdouble` and complex images are not supported with traps. -/
theorem C72_unsupported (m : Mem K) (a : Arr) (ht : (a.dtype m).withFloat64 ≠ .float64) (par ser : Option (Direction K))
    (htr : ¬(par = none ∧ ser = none)) (o : ℕ) (pw sw : Window) (tw : Option (List ℕ)) :
    (∀ out, (addCtiArr a par o pw ser sw tw m).2 ≠ .ok out) ∧
      ∀ out, addCti (a.image m) par o pw ser sw tw = .ok out → (addCtiArr a par o pw ser sw tw m).2 = .error .valueError := by
  have hclock : ∀ (m : Mem K) (b : Arr) (hb : (b.dtype m).withFloat64 ≠ .float64) (ccd : CcdView K) (roe : Roe K)
      (groups : List (Group K)) (express offset : ℕ) (rows columns : List ℕ) (tw : Option (List ℕ)),
      (clockArr b ccd roe groups express offset rows columns tw m).2 =
        clockCfg roe ccd express offset rows tw >>= fun _ => .error .valueError := by
    intro m b hb ccd roe groups express offset rows columns tw
    unfold clockArr
    cases clockCfg roe ccd express offset rows tw with
    | error e => rfl
    | ok x =>
      simp only [Act.bind_apply, Act.lift, Arr.read, Arr.readDtype, alloc, hb, if_false]
      rfl
  have key : ∀ (m1 : Mem K) (b : Arr) (i : Image K) (rows cols tw sc : List ℕ), (b.dtype m1).withFloat64 ≠ .float64 →
      (∀ out, (bothHalvesArr b par ser o rows cols tw sc m1).2 ≠ .ok out) ∧
        ∀ out, bothHalves i par ser o rows cols tw sc = .ok out →
          (bothHalvesArr b par ser o rows cols tw sc m1).2 = .error .valueError := by
    intro m1 b i rows cols tw sc hb
    have hcfg : ∀ {i : Image K} {d : Direction K} {offset : ℕ} {rows columns : List ℕ} {tw : Option (List ℕ)} {y},
        clockCharge i d.ccd d.roe d.groups d.express offset rows columns tw = .ok y →
        ∃ z, clockCfg d.roe d.ccd d.express offset rows tw = .ok z := by
      intro i d offset rows columns tw y h
      unfold clockCharge at h
      obtain ⟨z, hz, -⟩ := bind_eq_ok h
      exact ⟨z, hz⟩
    cases par with
    | some d =>
      unfold bothHalvesArr bothHalves
      simp only
      have hc := hclock m1 b hb d.ccd d.roe d.groups d.express o rows cols (some tw)
      rw [Act.bind_apply, hc]
      refine ⟨fun out => ?_, fun out h => ?_⟩
      · cases clockCfg d.roe d.ccd d.express o rows (some tw) with
        | error e => exact fun h => by cases h
        | ok x => exact fun h => by cases h
      · obtain ⟨y, hy, -⟩ := bind_eq_ok h
        obtain ⟨z, hz⟩ := hcfg hy
        rw [hz]
        rfl
    | none =>
      cases ser with
      | none => exact absurd ⟨rfl, rfl⟩ htr
      | some d =>
        unfold bothHalvesArr bothHalves serialHalfArr serialHalf
        simp only
        have hc := hclock (m1 ++ [⟨b.T.dtype m1, b.T.image m1⟩]) ⟨m1.length, 0, false⟩ (by rw [copy_dtype]; exact hb) d.ccd d.roe
          d.groups d.express d.offset cols sc none
        rw [Act.bind_apply, Arr.copy_apply]
        simp only
        rw [Act.bind_apply, hc]
        refine ⟨fun out => ?_, fun out h => ?_⟩
        · cases clockCfg d.roe d.ccd d.express d.offset cols none with
          | error e => exact fun h => by cases h
          | ok x => exact fun h => by cases h
        · obtain ⟨y, hy, -⟩ := bind_eq_ok h
          obtain ⟨z, hz⟩ := hcfg hy
          rw [hz]
          rfl
  rw [addCtiArr_halves, addCti_halves, Act.bind_apply]
  simp only [Arr.read]
  rw [Act.bind_apply]
  simp only [Act.lift]
  have hk := fun sc => key (m ++ [⟨a.dtype m, a.image m⟩]) ⟨m.length, 0, false⟩ (a.image m) (pw.resolve (a.image m).nr)
    (sw.resolve (a.image m).nc) (tw.getD (List.range ((a.image m).nr + o))) sc (by rw [copy_dtype]; exact ht)
  cases tw with
  | none =>
    simp only [Act.bind_apply, Arr.copy_apply, bind_ok]
    exact hk _
  | some t =>
    simp only
    cases serialColumns (pw.resolve (a.image m).nr) t o with
    | error e => exact ⟨fun out h => (by cases h), fun out h => (by cases h)⟩
    | ok sc =>
      simp only [Act.bind_apply, Arr.copy_apply, bind_ok]
      exact hk _

/-- **C72**: with no iterations, a copy of the image of any type. -/
theorem C72_remove_zero (store : Dtype → K → K) (m : Mem K) (a : Arr) (par ser : Option (Direction K)) (o : ℕ) (pw sw : Window)
    (tw : Option (List ℕ)) :
    ∃ m' b, removeCtiArr store a 0 par o pw ser sw tw m = (m', .ok (b, par, ser)) ∧ b.image m' = a.image m ∧ b.dtype m' = a.dtype m :=
  ⟨_, _, rfl, copy_image _ _ _, copy_dtype _ _ _⟩

/-! ## Examples -/

def exDir : Direction ℚ := ⟨exCcd, exRoe, [exGroup], 0, 0⟩

/-- Memory with one image of three rows. -/
def exMem (t : Dtype) : Mem ℚ := [⟨t, exImg 3 1 [[40], [0], [8]]⟩]
def exArr : Arr := ⟨0, 0, false⟩

/-- Single precision is played by multiples of 1/4. -/
def exStore : Dtype → ℚ → ℚ
  | .float32, x => ⌊x * 4⌋ / 4
  | _, x => x

/-- The first column of what is returned, the type, the address, and the original afterwards. -/
def exShow (x : Mem ℚ × Except Err (Arr × Option (Direction ℚ) × Option (Direction ℚ))) :
    Except Err (List ℚ × Dtype × ℕ) × List ℚ :=
  (x.2.map fun y => ((List.range 3).map fun r => (y.1.image x.1).px r 0, y.1.dtype x.1, y.1.addr),
    (List.range 3).map fun r => (exArr.image x.1).px r 0)

example : exShow (addCtiArr exArr (some exDir) 0 .all none .all none (exMem .int)) =
    (.ok ([36, 741 / 200, 2392923 / 256000], .float64, 2), [40, 0, 8]) := by decide +kernel
example : exShow (removeCtiArr exStore exArr 2 (some exDir) 0 .all none .all none (exMem .float64)) =
    (.ok ([222 / 5, -1159 / 200, 104108735119 / 16384000000], .float64, 1), [40, 0, 8]) := by decide +kernel
example : exShow (removeCtiArr exStore exArr 2 (some exDir) 0 .all none .all none (exMem .float32)) =
    (.ok ([177 / 4, -6, 25 / 4], .float32, 1), [40, 0, 8]) := by decide +kernel
example : exShow (removeCtiArr exStore exArr 2 (some exDir) 0 .all none .all none (exMem .int)) =
    (.error .typeError, [40, 0, 8]) := by decide +kernel
example : exShow (removeCtiArr exStore exArr 2 none 0 .all none .all none (exMem .int)) =
    (.ok ([40, 0, 8], .int, 1), [40, 0, 8]) := by decide +kernel
example : exShow (addCtiArr exArr (some exDir) 0 .all none .all none (exMem .complex)) =
    (.error .valueError, [40, 0, 8]) := by decide +kernel

end Arctic
