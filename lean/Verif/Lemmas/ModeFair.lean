import Verif.Lemmas.Fair
import Verif.Lemmas.ModePipe2
/-!
Lemmas for C95 for ever: the receiver in any mode, under fair scheduling.
-/
set_option autoImplicit false
namespace StAsio

set_option linter.unusedSimpArgs false

/-- What happens to a receiver whose link stays up. -/
def MAct.fits (s : Rm) : MAct → Prop
  | .read _ ec => ec = false
  | a => a.ok s = true

/-- on_msg_handle disposes of a message: it accepts it (one by one), or takes messages out of the queue (batch). -/
def MAct.isAccept (batch : Bool) : MAct → Bool
  | .ret ok => !batch && ok
  | .takeOne | .takeAll => batch
  | _ => false

/-- on_msg returns. -/
def MAct.isOnMsgRet : MAct → Bool
  | .onMsgRet _ _ => true
  | _ => false

theorem MAct.fits.honest {s : Rm} {a : MAct} (h : a.fits s) : a.honest s := by
  cases a with
  | read ms ec => trivial
  | _ => exact MAct.ok_honest h

theorem Rm.Live.fits {c : MCfg} {limit : Nat} {s s' : Rm} {a : MAct} {fs : List MEv} (h : s.Live c) (ha : a.fits s) (hs : s.step c limit a = some (s', fs)) : s'.Live c := by
  cases a with
  | read ms ec =>
    simp only [MAct.fits] at ha
    subst ha
    have h1 := Rm.inv_step h.inv (a := .read ms false) trivial hs
    have h2 := Rm.exact_step h.exact (a := .read ms false) trivial hs
    simp only [Rm.step] at hs
    split at hs
    · cases hs
    · simp only [Option.some.injEq, Prod.mk.injEq] at hs
      obtain ⟨rfl, rfl⟩ := hs
      exact ⟨h1, h2, h.ready, h.dlost, rfl, h.noTimer⟩
  | _ => exact h.step ha hs

/-- How far the dispatcher is from the next call of on_msg_handle. -/
def Rm.stage (s : Rm) : Nat :=
  match s.pc with
  | .handling => 0
  | .got => 1
  | .idle => if 0 < s.posted then 2 else if s.dtimer then 5 else 7
  | .posting => 3
  | .clearing => 4
  | .refused => 6

/-- Something waits for on_msg_handle. -/
structure Rm.Waits (c : MCfg) (s : Rm) : Prop where
  live : s.Live c
  some : s.cur.toList ++ s.buf.items ≠ []

theorem Q.tryDequeue_none {α : Type} {sz : α → Nat} {q q' : Q α} (h : q.tryDequeue sz = (q', none)) : q.items = [] := by
  cases hq : q.items with
  | nil => rfl
  | cons x l => simp [Q.tryDequeue, hq] at h

theorem Rm.Waits.buf {c : MCfg} {s : Rm} (h : s.Waits c) (hc : s.cur = none) : s.buf.items ≠ [] := by
  have := h.some
  simpa [hc] using this

/-- The dispatcher of a socket with something to dispatch does not get further away from the next call. -/
theorem Rm.stage_step {c : MCfg} {limit : Nat} {s s' : Rm} {a : MAct} {fs : List MEv} (h : s.Waits c) (hk : s.stage ≠ 0) (ha : a.fits s) (hs : s.step c limit a = some (s', fs)) : s'.stage ≤ s.stage := by
  obtain ⟨h1, h2, h3, h4, h5, h6, h7, h8, h9, h10, h11, h12⟩ := h.live.inv
  have hb := h.buf
  have hl := h.live.dlost
  have hpc : s.pc ≠ .handling := by intro hp; simp [Rm.stage, hp] at hk
  cases a with
  | handle => obtain ⟨hp, ⟨_, rfl, rfl⟩ | ⟨_, _, rfl, rfl⟩ | ⟨ms, rfl, rfl, _⟩⟩ := Rm.handle_cases hs <;> exact Nat.le_refl _
  | onMsgRet left n => obtain ⟨hp, ⟨_, rfl, rfl⟩ | ⟨_, rfl, rfl⟩⟩ := Rm.onMsg_cases ha.honest hs <;> exact Nat.le_refl _
  | run =>
    simp only [Rm.step] at hs
    (repeat' split at hs) <;> first
      | (cases hs; done)
      | (next hq => have := Q.tryDequeue_none hq; cases hs; grind [Rm.stage])
      | (cases hs; grind [Rm.stage])
  | _ =>
    first
    | (simp [MAct.ok, MAct.fits] at ha; done)
    | (simp only [Rm.step, Rm.startRead] at hs
       (repeat' split at hs) <;> first
        | (cases hs; done)
        | (simp only [Option.some.injEq, Prod.mk.injEq] at hs; obtain ⟨rfl, rfl⟩ := hs; first | exact Nat.le_refl _ | grind [Rm.stage]))

theorem mHandled_append (es fs : List MEv) : mHandled (es ++ fs) = mHandled es ++ mHandled fs := by
  induction es with
  | nil => rfl
  | cons e es ih =>
    cases e with
    | ret m ok => cases ok <;> simp [mHandled, ih]
    | _ => simp [mHandled, ih]

/-- What the dispatcher waits for. -/
def stageAct : Nat → MAct
  | 1 => .begin
  | 2 => .run
  | 5 => .dtimer
  | 7 => .loadDisp
  | _ => .dis

theorem Rm.stage_can {c : MCfg} (limit : Nat) {s : Rm} (h : s.Waits c) (hk : s.stage ≠ 0) : (s.step c limit (stageAct s.stage)).isSome = true := by
  obtain ⟨h1, h2, h3, h4, h5, h6, h7, h8, h9, h10, h11, h12⟩ := h.live.inv
  have hb := h.buf
  have hl := h.live.dlost
  cases hp : s.pc with
  | handling => simp [Rm.stage, hp] at hk
  | got => simp only [Rm.stage, hp, stageAct, Rm.step]; (repeat' split) <;> simp_all
  | posting => simp [Rm.stage, hp, stageAct, Rm.step]
  | clearing => simp [Rm.stage, hp, stageAct, Rm.step]
  | refused => simp [Rm.stage, hp, stageAct, Rm.step]
  | idle =>
    by_cases hq : 0 < s.posted
    · have he : s.stage = 2 := by simp [Rm.stage, hp, hq]
      rw [he]
      simp only [stageAct, Rm.step]
      rw [if_neg (by simp [hp]; omega)]
      (repeat' split) <;> rfl
    · cases hd : s.dtimer with
      | true => simp [Rm.stage, hp, hq, hd, stageAct, Rm.step]
      | false =>
        have hm : s.hp = .moved := by
          cases hcb : c.batch <;> grind
        simp [Rm.stage, hp, hq, hd, stageAct, Rm.step, hm]

theorem Rm.stage_less {c : MCfg} {limit : Nat} {s s' : Rm} {fs : List MEv} (h : s.Waits c) (hk : s.stage ≠ 0) (hs : s.step c limit (stageAct s.stage) = some (s', fs)) : s'.stage < s.stage := by
  obtain ⟨h1, h2, h3, h4, h5, h6, h7, h8, h9, h10, h11, h12⟩ := h.live.inv
  have hb := h.buf
  have hl := h.live.dlost
  cases hp : s.pc with
  | handling => simp [Rm.stage, hp] at hk
  | got =>
    have he : s.stage = 1 := by simp [Rm.stage, hp]
    rw [he] at hs ⊢
    simp only [stageAct, Rm.step] at hs
    (repeat' split at hs) <;> first
      | (cases hs; done)
      | (cases hs; simp [Rm.stage]; done)
      | grind
  | posting =>
    have he : s.stage = 3 := by simp [Rm.stage, hp]
    rw [he] at hs ⊢
    simp only [stageAct, Rm.step, hp] at hs
    cases hs; simp [Rm.stage]
  | clearing =>
    have he : s.stage = 4 := by simp [Rm.stage, hp]
    rw [he] at hs ⊢
    simp only [stageAct, Rm.step, hp] at hs
    cases hs; simp [Rm.stage]
  | refused =>
    have he : s.stage = 6 := by simp [Rm.stage, hp]
    rw [he] at hs ⊢
    simp only [stageAct, Rm.step, hp] at hs
    cases hs; simp [Rm.stage]; split <;> omega
  | idle =>
    by_cases hq : 0 < s.posted
    · have he : s.stage = 2 := by simp [Rm.stage, hp, hq]
      rw [he] at hs ⊢
      simp only [stageAct, Rm.step] at hs
      rw [if_neg (by simp [hp]; omega)] at hs
      (repeat' split at hs) <;> first
      | (cases hs; done)
      | (next hq => have := Q.tryDequeue_none hq; cases hs; grind)
      | (cases hs; simp [Rm.stage]; done)
      | grind
    · cases hd : s.dtimer with
      | true =>
        have he : s.stage = 5 := by simp [Rm.stage, hp, hq, hd]
        rw [he] at hs ⊢
        simp only [stageAct, Rm.step, hd, if_true] at hs
        cases hs; simp [Rm.stage, hp]
      | false =>
        have he : s.stage = 7 := by simp [Rm.stage, hp, hq, hd]
        rw [he] at hs ⊢
        have hnd : s.dispatching = false := by
          cases hdd : s.dispatching with
          | false => rfl
          | true => have := h11 hp hdd; simp_all
        simp only [stageAct, Rm.step, hnd] at hs
        split at hs
        · cases hs
        · cases hs; simp [Rm.stage, hp]

section
variable {c : MCfg} {limit : Nat} {s : Nat → Rm} {a : Nat → Option MAct} {e : Nat → List MEv}

/-- The receiver's activities that are not put off for ever. -/
structure Rm.FairRun (c : MCfg) (limit : Nat) (s : Nat → Rm) (a : Nat → Option MAct) : Prop where
  handle : Fair (Rm.step c limit) s a (· == .handle)
  onMsgRet : Fair (Rm.step c limit) s a MAct.isOnMsgRet
  loadDisp : Fair (Rm.step c limit) s a (· == .loadDisp)
  handled : Fair (Rm.step c limit) s a (· == .handled true)
  checkTimer : Fair (Rm.step c limit) s a (· == .checkTimer)
  doRecv : Fair (Rm.step c limit) s a (· == .doRecv true)
  run : Fair (Rm.step c limit) s a (· == .run)
  begin : Fair (Rm.step c limit) s a (· == .begin)
  dis : Fair (Rm.step c limit) s a (· == .dis)
  dtimer : Fair (Rm.step c limit) s a (· == .dtimer)
  accepts : Fair (Rm.step c limit) s a (MAct.isAccept c.batch)
  asks : c.passive = true → Fair (Rm.step c limit) s a (· == .userRecv)

theorem Rm.FairRun.stageAct (hf : Rm.FairRun c limit s a) (k : Nat) : Fair (Rm.step c limit) s a (· == stageAct k) := by
  unfold StAsio.stageAct
  split
  · exact hf.begin
  · exact hf.run
  · exact hf.dtimer
  · exact hf.loadDisp
  · exact hf.dis

/-- While something waits, on_msg_handle is running again and again. -/
theorem Rm.calls (he : Exec (Rm.step c limit) s a e) {n0 : Nat} (hok : ∀ n x, n0 ≤ n → a n = some x → x.fits (s n)) (hI : ∀ n, n0 ≤ n → (s n).Waits c) (hf : Rm.FairRun c limit s a) :
    ∀ k n, n0 ≤ n → (s n).stage ≤ k → ∃ m, n ≤ m ∧ (s m).pc = .handling := by
  intro k
  induction k with
  | zero =>
    intro n hn h
    refine ⟨n, Nat.le_refl _, ?_⟩
    simp only [Rm.stage] at h
    (repeat' split at h) <;> first | assumption | omega
  | succ k ih =>
    intro n hn h
    by_cases h' : (s n).stage ≤ k
    · exact ih n hn h'
    · have hl := he.leads (ok := fun t x => x.fits t) hok (I := fun t => t.Waits c) hI (hf.stageAct (k + 1)) (fun t => t.stage = k + 1) (fun t => t.stage ≤ k)
        (fun t t' x es hi _ hp hx hs => by have := Rm.stage_step hi (by omega) hx hs; omega)
        (fun t t' x es hi _ hp hx hc hs => by
          cases eq_of_beq hc
          have := Rm.stage_less hi (by omega) (by rw [hp]; exact hs)
          omega)
        (fun t hi hp => ⟨_, beq_self_eq_true _, by have := Rm.stage_can limit hi (by omega); rwa [hp] at this⟩)
      obtain ⟨m, hm, h1⟩ := hl n hn (by omega)
      obtain ⟨m', hm', h2⟩ := ih m (by omega) h1
      exact ⟨m', by omega, h2⟩

/-- on_msg_handle disposes of something. -/
theorem Rm.accept_step {t t' : Rm} {x : MAct} {es : List MEv} (h : t.Waits c) (hx : x.isAccept c.batch = true) (hs : t.step c limit x = some (t', es)) : mHandled es ≠ [] := by
  have hb := h.live.inv.batch
  have hbuf := h.buf
  cases x with
  | ret ok =>
    simp only [MAct.isAccept, Bool.and_eq_true, Bool.not_eq_true'] at hx
    obtain ⟨h1, rfl⟩ := hx
    have hg := h.live.inv.handling
    simp only [Rm.step, h1] at hs
    (repeat' split at hs) <;> first | (cases hs; done) | (cases hs; simp [mHandled]; done) | (simp_all)
  | takeOne =>
    have hx : c.batch = true := hx
    have := hbuf (hb hx)
    simp only [Rm.step, hx] at hs
    (repeat' split at hs) <;> first
      | (cases hs; done)
      | (next hq => exact absurd (Q.tryDequeue_none hq) this)
      | (cases hs; simp [mHandled])
  | takeAll =>
    have hx : c.batch = true := hx
    have := hbuf (hb hx)
    simp only [Rm.step, hx] at hs
    split at hs
    · cases hs
    · cases hs
      simpa [mHandled, Q.swap] using this
  | _ => simp [MAct.isAccept] at hx

theorem Rm.accept_can {t : Rm} (hp : t.pc = .handling) : ∃ x : MAct, x.isAccept c.batch = true ∧ (t.step c limit x).isSome = true := by
  cases hb : c.batch with
  | true => exact ⟨.takeAll, rfl, by simp [Rm.step, hp, hb]⟩
  | false =>
    refine ⟨.ret true, rfl, ?_⟩
    simp only [Rm.step, hp, hb]
    simp
    split <;> rfl

/-- While something waits, on_msg_handle disposes of something at some time. -/
theorem Rm.disposes (he : Exec (Rm.step c limit) s a e) (hok : ∀ n x, a n = some x → x.fits (s n)) (hL : ∀ n, (s n).Live c) (hf : Rm.FairRun c limit s a)
    (ho : ∀ n, mQueued (e n) = mHandled (e n) ++ (s n).cur.toList ++ (s n).buf.items) (n : Nat) (hw : (mHandled (e n)).length < (mQueued (e n)).length) :
    ∃ m, n ≤ m ∧ (mHandled (e n)).length < (mHandled (e m)).length := by
  apply Classical.byContradiction
  intro hc
  have hge : ∀ i m, i ≤ m → (mHandled (e i)).length ≤ (mHandled (e m)).length ∧ (mQueued (e i)).length ≤ (mQueued (e m)).length := by
    intro i m hm
    obtain ⟨es, h⟩ := he.grow_le hm
    rw [h, mHandled_append, mQueued_append, List.length_append, List.length_append]
    omega
  have hsame : ∀ m, n ≤ m → (mHandled (e m)).length = (mHandled (e n)).length := by
    intro m hm
    have h1 := (hge n m hm).1
    have h2 : ¬ (mHandled (e n)).length < (mHandled (e m)).length := fun h => hc ⟨m, hm, h⟩
    omega
  have hI : ∀ m, n ≤ m → (s m).Waits c := by
    intro m hm
    refine ⟨hL m, fun h => ?_⟩
    have h1 := ho m
    rw [List.append_assoc, h, List.append_nil] at h1
    have h2 := (hge n m hm).2
    rw [h1, hsame m hm] at h2
    omega
  obtain ⟨m, hm, x, hx, hax⟩ := hf.accepts (fun k => by
    obtain ⟨m, hm, hp⟩ := Rm.calls he (n0 := n) (fun i x _ h => hok i x h) hI hf _ (n + k) (by omega) (Nat.le_refl _)
    exact ⟨m, by omega, Rm.accept_can hp⟩) n
  obtain ⟨es, hs, h1⟩ := he.next m x hax
  have h2 := Rm.accept_step (hI m hm) hx hs
  have h3 := hsame (m + 1) (by omega)
  rw [h1, mHandled_append, List.length_append, hsame m hm] at h3
  exact h2 (List.length_eq_zero_iff.mp (by omega))

/-- Everything put into the receive buffer is disposed of by on_msg_handle at some time. -/
theorem Rm.handles (he : Exec (Rm.step c limit) s a e) (hok : ∀ n x, a n = some x → x.fits (s n)) (hL : ∀ n, (s n).Live c) (hf : Rm.FairRun c limit s a)
    (ho : ∀ n, mQueued (e n) = mHandled (e n) ++ (s n).cur.toList ++ (s n).buf.items) (n : Nat) : ∃ m, n ≤ m ∧ mQueued (e n) <+: mHandled (e m) := by
  obtain ⟨k, _, hk⟩ := reaches (f := fun k => (mHandled (e (n + k))).length) (t := (mQueued (e n)).length) (by
    intro k hlt
    obtain ⟨es, h⟩ := he.grow_le (show n ≤ n + k by omega)
    obtain ⟨m, h1, h2⟩ := Rm.disposes he hok hL hf ho (n + k) (by
      rw [h, mQueued_append, List.length_append, ← h]
      omega)
    exact ⟨m - n, by omega, by rw [show n + (m - n) = m by omega]; exact h2⟩) 0
  refine ⟨n + k, by omega, ?_⟩
  obtain ⟨es, h⟩ := he.grow_le (show n ≤ n + k by omega)
  have h1 : mHandled (e (n + k)) <+: mQueued (e (n + k)) := by
    rw [ho (n + k), List.append_assoc]
    exact List.prefix_append _ _
  have h2 : mQueued (e n) <+: mQueued (e (n + k)) := by
    rw [h, mQueued_append]
    exact List.prefix_append _ _
  exact List.prefix_of_prefix_length_le h2 h1 hk

/-- How far recv_handler is from its end. -/
def HPc.left : HPc → Nat
  | .idle => 0
  | .check => 1
  | .moved => 2
  | .inMsg => 3
  | .parsed => 4

/-- What recv_handler waits for. -/
def leftAct : Nat → MAct → Bool
  | 1 => (· == .handled true)
  | 2 => (· == .loadDisp)
  | 3 => MAct.isOnMsgRet
  | _ => (· == .handle)

theorem Rm.FairRun.leftAct (hf : Rm.FairRun c limit s a) (k : Nat) : Fair (Rm.step c limit) s a (leftAct k) := by
  unfold StAsio.leftAct
  split
  · exact hf.handled
  · exact hf.loadDisp
  · exact hf.onMsgRet
  · exact hf.handle

/-- Without reads, recv_handler only gets on. -/
theorem Rm.left_step {t t' : Rm} {x : MAct} {es : List MEv} (hx : x.ok t = true) (hs : t.step c limit x = some (t', es)) : t'.hp.left ≤ t.hp.left := by
  cases x with
  | handle => obtain ⟨hp, ⟨_, rfl, rfl⟩ | ⟨_, _, rfl, rfl⟩ | ⟨ms, rfl, rfl, _⟩⟩ := Rm.handle_cases hs <;> simp [hp, HPc.left, Rm.put]
  | onMsgRet left n => obtain ⟨hp, ⟨_, rfl, rfl⟩ | ⟨_, rfl, rfl⟩⟩ := Rm.onMsg_cases (MAct.ok_honest hx) hs <;> simp [hp, HPc.left, Rm.put]
  | _ =>
    first
    | (simp [MAct.ok] at hx; done)
    | (simp only [Rm.step, Rm.startRead] at hs
       (repeat' split at hs) <;> first
        | (cases hs; done)
        | (simp only [Option.some.injEq, Prod.mk.injEq] at hs; obtain ⟨rfl, rfl⟩ := hs; first | exact Nat.le_refl _ | simp_all [HPc.left]))

theorem Rm.left_less {t t' : Rm} {x : MAct} {es : List MEv} (hk : t.hp.left ≠ 0) (hx : x.ok t = true) (hc : leftAct t.hp.left x = true) (hs : t.step c limit x = some (t', es)) :
    t'.hp.left < t.hp.left := by
  cases hp : t.hp with
  | idle => simp [hp, HPc.left] at hk
  | parsed =>
    rw [hp] at hc
    cases eq_of_beq hc
    obtain ⟨_, ⟨_, rfl, rfl⟩ | ⟨_, _, rfl, rfl⟩ | ⟨ms, rfl, rfl, _⟩⟩ := Rm.handle_cases hs <;> simp [HPc.left, Rm.put]
  | inMsg =>
    rw [hp] at hc
    cases x with
    | onMsgRet left n => obtain ⟨_, ⟨_, rfl, rfl⟩ | ⟨_, rfl, rfl⟩⟩ := Rm.onMsg_cases (MAct.ok_honest hx) hs <;> simp [HPc.left, Rm.put]
    | _ => cases hc
  | moved =>
    rw [hp] at hc
    cases eq_of_beq hc
    simp only [Rm.step, hp] at hs
    cases hs
    simp [HPc.left]
  | check =>
    rw [hp] at hc
    cases eq_of_beq hc
    simp only [Rm.step, hp, Rm.startRead] at hs
    (repeat' split at hs) <;> first
        | (cases hs; done)
        | (cases hs; simp [HPc.left])

theorem Rm.left_can (c : MCfg) (limit : Nat) {t : Rm} (hk : t.hp.left ≠ 0) : ∃ x, leftAct t.hp.left x = true ∧ (t.step c limit x).isSome = true := by
  cases hp : t.hp with
  | idle => simp [hp, HPc.left] at hk
  | parsed =>
    refine ⟨.handle, rfl, ?_⟩
    simp only [Rm.step, hp, ne_eq, not_true_eq_false, if_false]
    (repeat' split) <;> rfl
  | inMsg => exact ⟨.onMsgRet [] 1, rfl, by simp [Rm.step, hp]⟩
  | moved => exact ⟨.loadDisp, rfl, by simp [Rm.step, hp]⟩
  | check =>
    refine ⟨.handled true, rfl, ?_⟩
    simp only [Rm.step, hp, ne_eq, not_true_eq_false, if_false]
    (repeat' split) <;> rfl

/-- Without reads, recv_handler ends. -/
theorem Rm.ends (he : Exec (Rm.step c limit) s a e) {n0 : Nat} (hok : ∀ n x, n0 ≤ n → a n = some x → x.ok (s n) = true) (hf : Rm.FairRun c limit s a) :
    ∃ N, n0 ≤ N ∧ ∀ m, N ≤ m → (s m).hp = .idle := by
  have key : ∀ k n, n0 ≤ n → (s n).hp.left ≤ k → ∃ m, n ≤ m ∧ (s m).hp.left = 0 := by
    intro k
    induction k with
    | zero => intro n hn h; exact ⟨n, Nat.le_refl _, by omega⟩
    | succ k ih =>
      intro n hn h
      by_cases h' : (s n).hp.left ≤ k
      · exact ih n hn h'
      · have hl := he.leads (ok := fun t x => x.ok t = true) hok (I := fun _ => True) (fun _ _ => trivial) (hf.leftAct (k + 1)) (fun t => t.hp.left = k + 1) (fun t => t.hp.left ≤ k)
          (fun t t' x es _ _ hp hx hs => by have := Rm.left_step hx hs; omega)
          (fun t t' x es _ _ hp hx hc hs => by have := Rm.left_less (by omega) hx (by rw [hp]; exact hc) hs; omega)
          (fun t _ hp => by have := Rm.left_can c limit (t := t) (by omega); rwa [hp] at this)
        obtain ⟨m, hm, h1⟩ := hl n hn (by omega)
        obtain ⟨m', hm', h2⟩ := ih m (by omega) h1
        exact ⟨m', by omega, h2⟩
  obtain ⟨N, hN, h0⟩ := key _ n0 (Nat.le_refl _) (Nat.le_refl _)
  refine ⟨N, hN, fun m hm => ?_⟩
  have := he.stays (ok := fun t x => x.ok t = true) (n0 := N) (fun n x hn => hok n x (by omega)) (J := fun _ => True) (fun _ _ => trivial) (fun t => t.hp.left = 0) h0
    (fun t t' x es _ _ hp hx hs => by have := Rm.left_step hx hs; omega) m hm
  cases hp : (s m).hp <;> simp [hp, HPc.left] at this ⊢

/-- A receiver whose recv_handler has ended and which puts nothing into the receive buffer any more. -/
theorem Rm.idle_step {t t' : Rm} {x : MAct} {es : List MEv} (hr : t.ready = true) (hp : t.hp = .idle) (hx : x.ok t = true) (hs : t.step c limit x = some (t', es)) :
    mQueued es = [] ∧ (t.out = true → t'.out = true) ∧ (0 < t.rposted → 0 < t'.rposted ∨ t'.out = true ∨ (c.passive = true ∧ t.reading = true)) ∧ (t.ctimer = true → t'.ctimer = true ∨ 0 < t'.rposted) := by
  cases x with
  | handle => obtain ⟨hp', _⟩ := Rm.handle_cases hs; rw [hp] at hp'; cases hp'
  | onMsgRet left n => obtain ⟨hp', _⟩ := Rm.onMsg_cases (MAct.ok_honest hx) hs; rw [hp] at hp'; cases hp'
  | _ =>
    first
    | (simp [MAct.ok] at hx; done)
    | (simp only [Rm.step, Rm.startRead] at hs
       (repeat' split at hs) <;> first
        | (cases hs; done)
        | (simp only [Option.some.injEq, Prod.mk.injEq] at hs; obtain ⟨rfl, rfl⟩ := hs; grind [mQueued, MAct.ok]))

/-- A receiver with room in its receive buffer reads again. -/
theorem Rm.readsAgain (he : Exec (Rm.step c limit) s a e) {n0 : Nat} (hok : ∀ n x, n0 ≤ n → a n = some x → x.ok (s n) = true) (hf : Rm.FairRun c limit s a)
    (hI : ∀ n, n0 ≤ n → (s n).Live c ∧ (s n).hp = .idle ∧ (s n).available limit = true) (hk : c.passive = false → (s n0).out = true ∨ 0 < (s n0).rposted ∨ (s n0).ctimer = true) :
    ∃ N, n0 ≤ N ∧ ∀ m, N ≤ m → (s m).out = true := by
  have l1 := he.leads (ok := fun t x => x.ok t = true) hok (I := fun t => t.Live c ∧ t.hp = .idle ∧ t.available limit = true) hI hf.doRecv (fun t => 0 < t.rposted) (fun t => t.out = true)
    (fun t t' x es hi _ hp hx hs => by
      obtain ⟨_, i1, i2, _⟩ := Rm.idle_step hi.1.ready hi.2.1 hx hs
      rcases i2 hp with h | h | ⟨h1, h2⟩
      · exact .inl h
      · exact .inr h
      · rw [hi.1.inv.flag h1] at h2; exact .inr (i1 h2))
    (fun t t' x es hi _ hp hx hc hs => by
      cases eq_of_beq hc
      simp only [Rm.step, Rm.startRead] at hs
      rw [if_neg (by simp [hi.2.1]; omega)] at hs
      split at hs
      · next h =>
        cases hs
        have h2 : t.reading = true := by rcases h.2 with h2 | h2; rw [hi.1.ready] at h2; cases h2; exact h2
        rw [hi.1.inv.flag h.1] at h2
        exact h2
      · cases hs; rfl)
    (fun t hi hp => ⟨.doRecv true, rfl, by
      simp only [Rm.step]
      rw [if_neg (by simp [hi.2.1]; omega)]
      split <;> rfl⟩)
  have hout : ∃ N, n0 ≤ N ∧ (s N).out = true := by
    cases hp : c.passive with
    | false =>
      have l2 := he.leads (ok := fun t x => x.ok t = true) hok (I := fun t => t.Live c ∧ t.hp = .idle ∧ t.available limit = true) hI hf.checkTimer (fun t => t.ctimer = true) (fun t => 0 < t.rposted)
        (fun t t' x es hi _ hp hx hs => (Rm.idle_step hi.1.ready hi.2.1 hx hs).2.2.2 hp)
        (fun t t' x es hi _ hp hx hc hs => by
          cases eq_of_beq hc
          simp only [Rm.step, hp, hi.2.2] at hs
          cases hs
          exact Nat.succ_pos _)
        (fun t hi hp => ⟨.checkTimer, rfl, by simp [Rm.step, hp, hi.2.2]⟩)
      rcases hk hp with h | h | h
      · exact ⟨n0, Nat.le_refl _, h⟩
      · exact l1 n0 (Nat.le_refl _) h
      · obtain ⟨m, hm, h1⟩ := l2 n0 (Nat.le_refl _) h
        obtain ⟨m', hm', h2⟩ := l1 m hm h1
        exact ⟨m', by omega, h2⟩
    | true =>
      have l3 := he.leads (ok := fun t x => x.ok t = true) hok (I := fun t => t.Live c ∧ t.hp = .idle ∧ t.available limit = true) hI (hf.asks hp) (fun t => t.out = false) (fun t => 0 < t.rposted ∨ t.out = true)
        (fun t t' x es hi _ hp hx hs => by cases h : t'.out <;> simp)
        (fun t t' x es hi _ ho hx hc hs => by
          cases eq_of_beq hc
          have hr : t.reading = false := by rw [hi.1.inv.flag hp, ho]
          simp only [Rm.step, hp, hi.1.ready, hr] at hs
          cases hs
          exact .inl (Nat.succ_pos _))
        (fun t hi ho => ⟨.userRecv, rfl, by simp [Rm.step, hp]⟩)
      cases ho : (s n0).out with
      | true => exact ⟨n0, Nat.le_refl _, ho⟩
      | false =>
        obtain ⟨m, hm, h1 | h1⟩ := l3 n0 (Nat.le_refl _) ho
        · obtain ⟨m', hm', h2⟩ := l1 m hm h1
          exact ⟨m', by omega, h2⟩
        · exact ⟨m, hm, h1⟩
  obtain ⟨N, hN, h0⟩ := hout
  exact ⟨N, hN, he.stays (ok := fun t x => x.ok t = true) (n0 := N) (fun n x hn => hok n x (by omega)) (J := fun t => t.Live c ∧ t.hp = .idle ∧ t.available limit = true) (fun n hn => hI n (by omega))
    (fun t => t.out = true) h0 (fun t t' x es hi _ hp hx hs => (Rm.idle_step hi.1.ready hi.2.1 hx hs).2.1 hp)⟩

/-- What was read goes on to on_msg or into the receive buffer. -/
theorem Rm.goesOn (he : Exec (Rm.step c limit) s a e) (hok : ∀ n x, a n = some x → x.fits (s n)) (hf : Rm.FairRun c limit s a) (n : Nat) : ∃ m, n ≤ m ∧ (s m).hp ≠ .parsed := by
  by_cases h : (s n).hp = .parsed
  · have l := he.leads (ok := fun t x => x.fits t) (n0 := n) (fun i x _ => hok i x) (I := fun _ => True) (fun _ _ => trivial) hf.handle (fun t => t.hp = .parsed) (fun t => t.hp ≠ .parsed)
      (fun t t' x es _ _ _ _ _ => by by_cases h : t'.hp = .parsed <;> simp [h])
      (fun t t' x es _ _ _ _ hc hs => by
        cases eq_of_beq hc
        obtain ⟨_, ⟨_, rfl, rfl⟩ | ⟨_, _, rfl, rfl⟩ | ⟨ms, rfl, rfl, _⟩⟩ := Rm.handle_cases hs <;> simp [Rm.put])
      (fun t _ hp => by
        have := Rm.left_can c limit (t := t) (by simp [hp, HPc.left])
        rw [hp] at this
        exact this)
    exact l n (Nat.le_refl _) h
  · exact ⟨n, Nat.le_refl _, h⟩

end
end StAsio
