import Verif.Props.C56_Fair
import Verif.Props.C70_Echo
import Verif.Lemmas.Window2
set_option autoImplicit false
namespace StAsio

/-!
C70 for ever: a client that goes on asking for ever, and a server that answers every message and refuses messages while its own send buffer is full.
-/

/-- An activity of class `c` on the way from the client to the server. -/
def EAct.upIs (c : PAct → Bool) : EAct → Bool
  | .up a => c a
  | _ => false

/-- An activity of class `c` on the way from the server to the client. -/
def EAct.downIs (c : PAct → Bool) : EAct → Bool
  | .down a => c a
  | _ => false

/-- What one direction of a working link does besides taking bytes from the sender and calling on_msg_handle: a thread inside a send function goes on; a posted do_send_msg; do_send_msg itself; send_handler; the network
delivers; the receiving chain goes on after messages were stored, before the next read, when it polls a full receive buffer; a posted do_dispatch_msg; do_dispatch_msg itself; the retry timer. -/
def linkActs : List (PAct → Bool) :=
  [PAct.isTx (· == .loadReady), PAct.isTx (· == .loadFlag), PAct.isTx (· == .runPosted), PAct.isTx (· == .strand), PAct.isTx TxAct.isHandler, PAct.isNet,
   PAct.isRx (· == .loadDisp), PAct.isRx (· == .handled), PAct.isRx (· == .checkTimer), PAct.isRx (· == .resume),
   PAct.isRx (· == .run), PAct.isRx (· == .begin), PAct.isRx (· == .dis), PAct.isRx (· == .dtimer)]

/-- None of the activities of a client and a server is put off for ever, and the client's on_msg_handle, called again and again, accepts again and again. (Nothing is assumed about what the server's on_msg_handle returns.) -/
structure Echo.FairRun (step : Echo → EAct → Option (Echo × List EEv)) (s : Nat → Echo) (a : Nat → Option EAct) : Prop where
  up : ∀ c ∈ linkActs, Fair step s a (EAct.upIs c)
  /-- the client's kernel takes bytes and completes writes -/
  upKernel : Fair step s a (EAct.upIs (PAct.isTx TxAct.kernel))
  /-- the server's on_msg_handle is called -/
  echo : Fair step s a (· == .echo)
  down : ∀ c ∈ linkActs, Fair step s a (EAct.downIs c)
  /-- the server's kernel takes bytes and completes writes -/
  downKernel : Fair step s a (EAct.downIs (PAct.isTx TxAct.kernel))
  /-- the client's application accepts answers -/
  accepts : Fair step s a (EAct.downIs (PAct.isRx (· == .ret true)))

/-- What an action means for the way from the client to the server. -/
def Echo.upAct (c : Cfg) (nd : Bool) (sendLimit : Nat) (t : Echo) : EAct → Option PAct
  | .up a => some a
  | .down _ => none
  | .echo => t.up.rx.cur.map (fun m => .rx (.ret (Echo.accepts c nd sendLimit t.down m)))

/-- What an action means for the way back. -/
def Echo.downAct (c : Cfg) (nd : Bool) (sendLimit : Nat) (t : Echo) : EAct → Option PAct
  | .up _ => none
  | .down a => some a
  | .echo => t.up.rx.cur.bind (fun m => if Echo.accepts c nd sendLimit t.down m then some (.send (.one m) true) else none)

section
variable {c : Cfg} {nd cwf : Bool} {batch limit sendLimit : Nat}

theorem Echo.step_parts {s s' : Echo} {x : EAct} {es : List EEv} (hs : s.step c nd cwf batch limit sendLimit x = some (s', es)) :
    (match Echo.upAct c nd sendLimit s x with
      | none => s'.up = s.up ∧ ups es = []
      | some y => s.up.step c nd cwf batch limit y = some (s'.up, ups es)) ∧
    (match Echo.downAct c nd sendLimit s x with
      | none => s'.down = s.down ∧ downs es = []
      | some y => s.down.step c nd cwf batch limit y = some (s'.down, downs es)) := by
  cases x with
  | up a =>
    simp only [Echo.step] at hs
    split at hs
    · cases hs
    · obtain ⟨⟨u, fs⟩, h1, h2⟩ := Option.map_eq_some_iff.mp hs
      cases h2
      simp only [Echo.upAct, Echo.downAct, ups_up, downs_up]
      exact ⟨h1, trivial, trivial⟩
  | down a =>
    simp only [Echo.step] at hs
    split at hs
    · cases hs
    · obtain ⟨⟨u, fs⟩, h1, h2⟩ := Option.map_eq_some_iff.mp hs
      cases h2
      simp only [Echo.upAct, Echo.downAct, ups_down, downs_down]
      exact ⟨⟨trivial, trivial⟩, h1⟩
  | echo =>
    simp only [Echo.step] at hs
    cases hm : s.up.rx.cur with
    | none => rw [hm] at hs; cases hs
    | some m =>
      rw [hm] at hs
      simp only at hs
      simp only [Echo.upAct, Echo.downAct, hm, Option.map_some, Option.bind_some]
      split at hs
      · next hacc =>
        simp only [Option.bind_eq_bind, Option.bind_eq_some_iff] at hs
        obtain ⟨d, hd, u, hu, hs⟩ := hs
        cases hs
        simp only [hacc, if_true, ups_append, downs_append, ups_up, ups_down, downs_up, downs_down, List.nil_append, List.append_nil]
        exact ⟨hu, hd⟩
      · next hacc =>
        simp only [Option.bind_eq_bind, Option.bind_eq_some_iff] at hs
        obtain ⟨u, hu, hs⟩ := hs
        cases hs
        simp only [Bool.not_eq_true] at hacc
        simp only [hacc, ups_up, downs_up, Bool.false_eq_true, if_false]
        exact ⟨hu, trivial, trivial⟩

/-- Only send functions send. -/
theorem Pipe.step_nosend {t t' : Pipe} {x : PAct} {fs : List PEv} (hx : ∀ call fits, x ≠ .send call fits) (hs : t.step c nd cwf batch limit x = some (t', fs)) : sentItems fs = [] := by
  cases x with
  | send call fits => exact absurd rfl (hx call fits)
  | tx y =>
    simp only [Pipe.step] at hs
    split at hs
    · obtain ⟨r, _, hs⟩ := Option.map_eq_some_iff.mp hs
      cases hs; rfl
    · cases hs
  | net k =>
    simp only [Pipe.step] at hs
    (repeat' split at hs) <;> first
      | (cases hs; done)
      | (cases hs; rfl)
      | (obtain ⟨r, _, hs⟩ := Option.map_eq_some_iff.mp hs
         cases hs
         exact (handledItems_rxEv r.2).2)
  | rx y =>
    simp only [Pipe.step] at hs
    split at hs
    · obtain ⟨r, _, hs⟩ := Option.map_eq_some_iff.mp hs
      cases hs
      exact (handledItems_rxEv r.2).2
    · cases hs

theorem Pipe.ret_either' {t u : Pipe} {fs : List PEv} (hs : t.step c nd cwf batch limit (.rx (.ret false)) = some (u, fs)) : ∃ u' fs', t.step c nd cwf batch limit (.rx (.ret true)) = some (u', fs') := by
  simp only [Pipe.step, RAct.healthy, if_true, Option.map_eq_some_iff, Rx.step] at hs ⊢
  obtain ⟨r, hs, _⟩ := hs
  split at hs <;> first | (cases hs; done) | skip
  next h =>
  simp only [h, if_false]
  cases t.rx.cur <;> exact ⟨_, _, _, rfl, rfl⟩

theorem Pipe.ret_either {t u : Pipe} {fs : List PEv} (hs : t.step c nd cwf batch limit (.rx (.ret true)) = some (u, fs)) : ∃ u' fs', t.step c nd cwf batch limit (.rx (.ret false)) = some (u', fs') := by
  simp only [Pipe.step, RAct.healthy, if_true, Option.map_eq_some_iff, Rx.step] at hs ⊢
  obtain ⟨r, hs, _⟩ := hs
  split at hs <;> first | (cases hs; done) | skip
  next h =>
  simp only [h, if_false]
  cases t.rx.cur <;> exact ⟨_, _, _, rfl, rfl⟩

variable {s : Nat → Echo} {a : Nat → Option EAct} {e : Nat → List EEv}

theorem Echo.exec_up (he : Exec (Echo.step c nd cwf batch limit sendLimit) s a e) :
    Exec (Pipe.step c nd cwf batch limit) (fun n => (s n).up) (fun n => (a n).bind (Echo.upAct c nd sendLimit (s n))) (fun n => ups (e n)) := by
  refine ⟨by simp only [he.start, ups], fun n hn => ?_, fun n y hn => ?_⟩
  · cases hx : a n with
    | none => have := he.idle n hx; simp only [this]; exact ⟨trivial, trivial⟩
    | some x =>
      obtain ⟨es, hs, h1⟩ := he.next n x hx
      have h2 := (Echo.step_parts hs).1
      simp only [hx, Option.bind_some] at hn
      rw [hn] at h2
      simp only [h1, ups_append, h2.2, List.append_nil]
      exact ⟨h2.1, trivial⟩
  · cases hx : a n with
    | none => simp [hx] at hn
    | some x =>
      obtain ⟨es, hs, h1⟩ := he.next n x hx
      have h2 := (Echo.step_parts hs).1
      simp only [hx, Option.bind_some] at hn
      rw [hn] at h2
      exact ⟨_, h2, by simp only [h1, ups_append]⟩

theorem Echo.exec_down (he : Exec (Echo.step c nd cwf batch limit sendLimit) s a e) :
    Exec (Pipe.step c nd cwf batch limit) (fun n => (s n).down) (fun n => (a n).bind (Echo.downAct c nd sendLimit (s n))) (fun n => downs (e n)) := by
  refine ⟨by simp only [he.start, downs], fun n hn => ?_, fun n y hn => ?_⟩
  · cases hx : a n with
    | none => have := he.idle n hx; simp only [this]; exact ⟨trivial, trivial⟩
    | some x =>
      obtain ⟨es, hs, h1⟩ := he.next n x hx
      have h2 := (Echo.step_parts hs).2
      simp only [hx, Option.bind_some] at hn
      rw [hn] at h2
      simp only [h1, downs_append, h2.2, List.append_nil]
      exact ⟨h2.1, trivial⟩
  · cases hx : a n with
    | none => simp [hx] at hn
    | some x =>
      obtain ⟨es, hs, h1⟩ := he.next n x hx
      have h2 := (Echo.step_parts hs).2
      simp only [hx, Option.bind_some] at hn
      rw [hn] at h2
      exact ⟨_, h2, by simp only [h1, downs_append]⟩

theorem Echo.init_parts {raw1 raw2 : Bytes} {st1 st2 : Bool} {t : Echo} (h0 : Echo.init c raw1 raw2 st1 st2 = some t) : Pipe.init c raw1 st1 = some t.up ∧ Pipe.init c raw2 st2 = some t.down := by
  simp only [Echo.init, Option.bind_eq_bind, Option.bind_eq_some_iff] at h0
  obtain ⟨u, hu, d, hd, h0⟩ := h0
  simp only [Option.pure_def, Option.some.injEq] at h0
  rw [← h0]
  exact ⟨hu, hd⟩

theorem Echo.honest_up (ha : ∀ n x, a n = some x → x.Honest) : ∀ n y, (a n).bind (Echo.upAct c nd sendLimit (s n)) = some y → y.Honest := by
  intro n y hy
  cases hx : a n with
  | none => simp [hx] at hy
  | some x =>
    simp only [hx, Option.bind_some] at hy
    have := ha n x hx
    cases x with
    | up b => cases hy; exact this
    | down b => cases hy
    | echo => simp only [Echo.upAct, Option.map_eq_some_iff] at hy; obtain ⟨m, _, rfl⟩ := hy; trivial

theorem Echo.honest_down (he : Exec (Echo.step c nd cwf batch limit sendLimit) s a e) : ∀ n y, (a n).bind (Echo.downAct c nd sendLimit (s n)) = some y → y.Honest := by
  intro n y hy
  cases hx : a n with
  | none => simp [hx] at hy
  | some x =>
    simp only [hx, Option.bind_some] at hy
    obtain ⟨es, hs, _⟩ := he.next n x hx
    cases x with
    | up b => cases hy
    | down b =>
      simp only [Echo.downAct, Option.some.injEq] at hy
      subst hy
      cases b with
      | send call fits => cases call <;> first | trivial | simp [Echo.step, PAct.isOtherSend] at hs
      | _ => trivial
    | echo =>
      simp only [Echo.downAct, Option.bind_eq_some_iff] at hy
      obtain ⟨m, _, hy⟩ := hy
      split at hy <;> cases hy
      trivial

/-- The argument, for any network: `hk` says that the client's kernel goes on if the server reads. -/
theorem Echo.answers (hv : c.Valid) (hh : c.bufSize < 256 ^ c.headLen) {raw1 raw2 : Bytes} (hraw1 : raw1.length = c.bufSize) (hraw2 : raw2.length = c.bufSize) {st2 : Bool}
    (hlim : 0 < limit) (hsl : 0 < sendLimit) (h0 : Echo.init c raw1 raw2 true st2 = some (s 0)) (ha : ∀ n x, a n = some x → x.Honest)
    (hb : ∃ N, ∀ n, N ≤ n → ∀ fits, a n ≠ some (.down (.send .heartbeat fits))) (he : Exec (Echo.step c nd cwf batch limit sendLimit) s a e)
    (hup : ∀ cl ∈ linkActs, Fair (Pipe.step c nd cwf batch limit) (fun n => (s n).up) (fun n => (a n).bind (Echo.upAct c nd sendLimit (s n))) cl)
    (hk : Pipe.FairRx c nd cwf batch limit (fun n => (s n).up) (fun n => (a n).bind (Echo.upAct c nd sendLimit (s n))) →
      Fair (Pipe.step c nd cwf batch limit) (fun n => (s n).up) (fun n => (a n).bind (Echo.upAct c nd sendLimit (s n))) (PAct.isTx TxAct.kernel))
    (hecho : Fair (Echo.step c nd cwf batch limit sendLimit) s a (· == .echo))
    (hdown : Pipe.FairRun c nd cwf batch limit (fun n => (s n).down) (fun n => (a n).bind (Echo.downAct c nd sendLimit (s n)))) (n : Nat) :
    ∃ m, expected c.headLen st2 (asked (e n)) <+: answered (e m) := by
  obtain ⟨s1, h1, hg0⟩ := Echo.init_good c hv true st2 batch limit raw1 raw2 hraw1 hraw2
  rw [h0] at h1
  cases h1
  have hg : ∀ n, (s n).Good c true st2 batch limit (e n) :=
    he.holds (fun t es => t.Good c true st2 batch limit es) hg0 (fun n x es hx h hs => Echo.step_good hv hh h (ha n x hx) hs)
  have hinit := Echo.init_parts h0
  have hxu := Echo.exec_up he
  have hxd := Echo.exec_down he
  have hau := Echo.honest_up ha (c := c) (nd := nd) (sendLimit := sendLimit) (s := s)
  have had := Echo.honest_down he
  -- the server accepts again and again
  have hacc : Fair (Pipe.step c nd cwf batch limit) (fun n => (s n).up) (fun n => (a n).bind (Echo.upAct c nd sendLimit (s n))) (PAct.isRx (· == .ret true)) := by
    intro ho
    apply Classical.byContradiction
    intro hc
    obtain ⟨N0, hN0⟩ := hb
    have hN : ∃ N, N0 ≤ N ∧ ∀ m, N ≤ m → a m = some .echo → ∀ w, (s m).up.rx.cur = some w → Echo.accepts c nd sendLimit (s m).down w = false := by
      apply Classical.byContradiction
      intro h
      refine hc (fun n => ?_)
      apply Classical.byContradiction
      intro h'
      refine h ⟨N0 + n, by omega, fun m hm hx w hw => ?_⟩
      cases hk : Echo.accepts c nd sendLimit (s m).down w with
      | false => rfl
      | true => exact absurd ⟨m, by omega, .rx (.ret true), rfl, by simp [hx, Echo.upAct, hw, hk]⟩ h'
    obtain ⟨N, hN1, hN⟩ := hN
    -- nothing is sent by the server from now on
    have hstill : ∀ k, sentItems (downs (e (N + k))) = sentItems (downs (e N)) := by
      intro k
      induction k with
      | zero => rfl
      | succ k ih =>
        rw [← ih, ← Nat.add_assoc]
        cases hx : a (N + k) with
        | none => rw [(he.idle _ hx).2]
        | some x =>
          obtain ⟨es, hs, h1⟩ := he.next _ x hx
          rw [h1, downs_append, sentItems_append]
          suffices sentItems (downs es) = [] by rw [this, List.append_nil]
          have h2 := (Echo.step_parts hs).2
          cases x with
          | up b => rw [h2.2]; rfl
          | echo =>
            cases hw : (s (N + k)).up.rx.cur with
            | none => simp only [Echo.downAct, hw, Option.bind_none] at h2; rw [h2.2]; rfl
            | some w =>
              simp only [Echo.downAct, hw, Option.bind_some, hN _ (by omega) hx w hw, Bool.false_eq_true, if_false] at h2
              rw [h2.2]; rfl
          | down b =>
            simp only [Echo.downAct] at h2
            cases b with
            | send call fits =>
              cases call with
              | heartbeat => exact absurd hx (hN0 _ (by omega) fits)
              | _ => simp [Echo.step, PAct.isOtherSend] at hs
            | tx y => exact (Pipe.step_nosend (by simp) h2)
            | rx y => exact (Pipe.step_nosend (by simp) h2)
            | net k => exact (Pipe.step_nosend (by simp) h2)
    obtain ⟨m0, hm0⟩ := Pipe.writes_on hv hh hraw2 hinit.2 had hxd ⟨hdown.loadReady, hdown.loadFlag, hdown.runPosted, hdown.strand, hdown.kernel, hdown.handler⟩ N
    have hmono := (Pipe.reads_on hv hh hraw2 hinit.2 had hxd hlim ⟨hdown.net, hdown.loadDisp, hdown.handled, hdown.checkTimer, hdown.resume, hdown.run, hdown.begin, hdown.dis, hdown.dtimer, hdown.accepts⟩).2.1
    have hroom : ∀ m, N + m0 ≤ m → (s m).down.tx.q.total = 0 := by
      intro m hm
      have h1 := hmono m0 m (by omega)
      have h2 := hstill (m - N)
      rw [show N + (m - N) = m by omega] at h2
      have h3 := congrArg List.length (hg m).down.stream
      simp only [List.length_append] at h3
      rw [h2] at h3
      have h4 : (TxMsg.bytes (s m).down.tx.q.items).length = 0 := by omega
      have h5 := (hg m).down.tx_inv.exact
      rw [Q.Exact, ← bytes_size, h4] at h5
      simpa using h5
    -- so the next call is successful
    obtain ⟨m, hm, x, hx, hax⟩ := hecho (fun k => by
      obtain ⟨m, hm, y, hy, hs⟩ := ho k
      have hy : y = .rx (.ret true) := by
        cases y with
        | rx z => simp only [PAct.isRx] at hy; rw [eq_of_beq hy]
        | _ => simp [PAct.isRx] at hy
      subst hy
      obtain ⟨⟨u, fs⟩, hu⟩ := Option.isSome_iff_exists.mp hs
      obtain ⟨w, hw⟩ := Pipe.ret_cur hv hh (hg m).up hu
      refine ⟨m, hm, .echo, rfl, ?_⟩
      obtain ⟨hok, _, _⟩ := Pipe.cur_packs (nd := nd) hh (hg m).up hw
      obtain ⟨d, d1, _⟩ := Pipe.step_send_one hv hh (cwf := cwf) (hg m).down w hok
      cases hacc : Echo.accepts c nd sendLimit (s m).down w with
      | true => simp [Echo.step, hw, hacc, d1, hu]
      | false =>
        have : ∃ u fs, (s m).up.step c nd cwf batch limit (.rx (.ret false)) = some (u, fs) := Pipe.ret_either hu
        obtain ⟨u', fs', hu'⟩ := this
        simp [Echo.step, hw, hacc, hu']) (N + m0)
    cases eq_of_beq hx
    obtain ⟨es, hs, _⟩ := he.next m _ hax
    cases hw : (s m).up.rx.cur with
    | none => simp [Echo.step, hw] at hs
    | some w =>
      have h1 := hN m (by omega) hax w hw
      obtain ⟨hok, _, _⟩ := Pipe.cur_packs (nd := nd) hh (hg m).up hw
      simp only [Echo.accepts, hroom m hm] at h1
      rw [if_pos hsl] at h1
      cases h1
  have hfx : Pipe.FairRx c nd cwf batch limit (fun n => (s n).up) (fun n => (a n).bind (Echo.upAct c nd sendLimit (s n))) :=
    ⟨hup _ (by simp [linkActs]), hup _ (by simp [linkActs]), hup _ (by simp [linkActs]), hup _ (by simp [linkActs]), hup _ (by simp [linkActs]), hup _ (by simp [linkActs]), hup _ (by simp [linkActs]),
      hup _ (by simp [linkActs]), hup _ (by simp [linkActs]), hacc⟩
  have hfu : Pipe.FairRun c nd cwf batch limit (fun n => (s n).up) (fun n => (a n).bind (Echo.upAct c nd sendLimit (s n))) :=
    ⟨hup _ (by simp [linkActs]), hup _ (by simp [linkActs]), hup _ (by simp [linkActs]), hup _ (by simp [linkActs]), hk hfx, hup _ (by simp [linkActs]), hfx.net, hfx.loadDisp, hfx.handled, hfx.checkTimer, hfx.resume,
      hfx.run, hfx.begin, hfx.dis, hfx.dtimer, hacc⟩
  obtain ⟨m1, hm1⟩ := C56_no_starvation c hv hh raw1 hraw1 true nd cwf batch limit hlim _ _ _ hinit.1 hau hxu hfu n
  obtain ⟨m2, hm2⟩ := C56_no_starvation c hv hh raw2 hraw2 st2 nd cwf batch limit hlim _ _ _ hinit.2 had hxd hdown m1
  refine ⟨m2, List.IsPrefix.trans ?_ hm2⟩
  obtain ⟨t, ht⟩ := hm1
  rw [expected.eq_def c.headLen st2 (sentItems _), (hg m1).tie, ← ht]
  simp only [expected, asked]
  rw [show seen c.headLen true = id from by funext b; simp [seen]]
  simp

/-- An activity that needs no room and is not on_msg_handle. -/
theorem Echo.fair_up {step : Echo → EAct → Option (Echo × List EEv)} {step' : Pipe → PAct → Option (Pipe × List PEv)} {cl : PAct → Bool}
    (h : ∀ t y, cl y = true → (step' t.up y).isSome = true → (step t (.up y)).isSome = true) (hf : Fair step s a (EAct.upIs cl)) :
    Fair step' (fun n => (s n).up) (fun n => (a n).bind (Echo.upAct c nd sendLimit (s n))) cl := by
  refine Fair.project (proj := Echo.up) hf cl (fun n y hy hs => ⟨.up y, hy, h _ y hy hs⟩) (fun n x hx _ => ?_)
  cases x with
  | up y => exact ⟨y, hx, rfl⟩
  | _ => simp [EAct.upIs] at hx

theorem Echo.fair_down {step : Echo → EAct → Option (Echo × List EEv)} {step' : Pipe → PAct → Option (Pipe × List PEv)} {cl : PAct → Bool}
    (h : ∀ t y, cl y = true → (step' t.down y).isSome = true → (step t (.down y)).isSome = true) (hf : Fair step s a (EAct.downIs cl)) :
    Fair step' (fun n => (s n).down) (fun n => (a n).bind (Echo.downAct c nd sendLimit (s n))) cl := by
  refine Fair.project (proj := Echo.down) hf cl (fun n y hy hs => ⟨.down y, hy, h _ y hy hs⟩) (fun n x hx _ => ?_)
  cases x with
  | down y => exact ⟨y, hx, rfl⟩
  | _ => simp [EAct.downIs] at hx

/-- None of these is a call of a send function or the return of on_msg_handle, and none needs room in the network. -/
theorem linkActs_plain {cl : PAct → Bool} (hcl : cl ∈ linkActs) {y : PAct} (hy : cl y = true) : y.isRet = false ∧ y.isOtherSend = false ∧ y.Internal ∧ ∀ W n off, y.room W n off = true := by
  simp only [linkActs, List.mem_cons, List.not_mem_nil, or_false] at hcl
  rcases hcl with rfl | rfl | rfl | rfl | rfl | rfl | rfl | rfl | rfl | rfl | rfl | rfl | rfl | rfl <;>
    (cases y with
    | tx z => cases z <;> simp_all [PAct.isTx, PAct.isRx, PAct.isNet, TxAct.isHandler, PAct.isRet, PAct.isOtherSend, PAct.room, PAct.Internal]
    | rx z => cases z <;> simp_all [PAct.isTx, PAct.isRx, PAct.isNet, TxAct.isHandler, PAct.isRet, PAct.isOtherSend, PAct.room, PAct.Internal]
    | _ => simp_all [PAct.isTx, PAct.isRx, PAct.isNet, TxAct.isHandler, PAct.isRet, PAct.isOtherSend, PAct.room, PAct.Internal])

theorem Echo.can_up (t : Echo) {y : PAct} (h1 : y.isRet = false) (hs : (t.up.step c nd cwf batch limit y).isSome = true) : (t.step c nd cwf batch limit sendLimit (.up y)).isSome = true := by
  simp only [Echo.step, h1, Bool.false_eq_true, if_false, Option.isSome_map]
  exact hs

theorem Echo.can_down (t : Echo) {y : PAct} (h1 : y.isOtherSend = false) (hs : (t.down.step c nd cwf batch limit y).isSome = true) : (t.step c nd cwf batch limit sendLimit (.down y)).isSome = true := by
  simp only [Echo.step, h1, Bool.false_eq_true, if_false, Option.isSome_map]
  exact hs

end

/-- C70, for ever: a client that goes on asking for ever, a server that answers each message in on_msg_handle and refuses messages while its send buffer is full (and sends heartbeats of its own only finitely often). If none of the
activities is put off for ever and the client accepts answers again and again, then every non-empty message is answered at some time, in order and with the same content. That the server accepts again and again is not assumed. -/
theorem C70_no_starvation (c : Cfg) (hv : c.Valid) (hh : c.bufSize < 256 ^ c.headLen) (raw1 raw2 : Bytes) (hraw1 : raw1.length = c.bufSize) (hraw2 : raw2.length = c.bufSize) (st2 nd cwf : Bool)
    (batch limit sendLimit : Nat) (hlim : 0 < limit) (hsl : 0 < sendLimit) (s : Nat → Echo) (a : Nat → Option EAct) (e : Nat → List EEv) (h0 : Echo.init c raw1 raw2 true st2 = some (s 0))
    (ha : ∀ n x, a n = some x → x.Honest) (hb : ∃ N, ∀ n, N ≤ n → ∀ fits, a n ≠ some (.down (.send .heartbeat fits))) (he : Exec (Echo.step c nd cwf batch limit sendLimit) s a e)
    (hf : Echo.FairRun (Echo.step c nd cwf batch limit sendLimit) s a) (n : Nat) : ∃ m, expected c.headLen st2 (asked (e n)) <+: answered (e m) := by
  have hk : ∀ y, PAct.isTx TxAct.kernel y = true → y.isRet = false ∧ y.isOtherSend = false := by
    intro y hy
    cases y <;> first | exact ⟨rfl, rfl⟩ | simp [PAct.isTx] at hy
  have hd : ∀ cl ∈ linkActs, _ := fun cl hcl => Echo.fair_down (c := c) (nd := nd) (sendLimit := sendLimit) (step' := Pipe.step c nd cwf batch limit) (fun t y hy hs => Echo.can_down t (linkActs_plain hcl hy).2.1 hs) (hf.down cl hcl)
  refine Echo.answers hv hh hraw1 hraw2 hlim hsl h0 ha hb he (fun cl hcl => Echo.fair_up (fun t y hy hs => Echo.can_up t (linkActs_plain hcl hy).1 hs) (hf.up cl hcl))
    (fun _ => Echo.fair_up (fun t y hy hs => Echo.can_up t (hk y hy).1 hs) hf.upKernel) hf.echo ?_ n
  exact ⟨hd _ (by simp [linkActs]), hd _ (by simp [linkActs]), hd _ (by simp [linkActs]), hd _ (by simp [linkActs]), Echo.fair_down (fun t y hy hs => Echo.can_down t (hk y hy).2 hs) hf.downKernel,
    hd _ (by simp [linkActs]), hd _ (by simp [linkActs]), hd _ (by simp [linkActs]), hd _ (by simp [linkActs]), hd _ (by simp [linkActs]), hd _ (by simp [linkActs]), hd _ (by simp [linkActs]), hd _ (by simp [linkActs]),
    hd _ (by simp [linkActs]), hd _ (by simp [linkActs]), Echo.fair_down (fun t y hy hs => Echo.can_down t (by
      cases y <;> first | rfl | simp [PAct.isRx] at hy) hs) hf.accepts⟩

theorem Echo.run_play {c : Cfg} {nd cwf : Bool} {batch limit sendLimit : Nat} {s0 s : Echo} {as : List EAct} {es : List EEv} (h : Echo.Run c nd cwf batch limit sendLimit s0 as s es) :
    play (Echo.step c nd cwf batch limit sendLimit) s0 as as.length = (s, es) ∧ ∀ i : Fin as.length, (Echo.step c nd cwf batch limit sendLimit (play (Echo.step c nd cwf batch limit sendLimit) s0 as i).1 as[i]).isSome = true := by
  induction h with
  | nil => exact ⟨rfl, fun i => absurd i.2 (by simp)⟩
  | snoc s1 s2 as x es fs hr hs ih =>
    obtain ⟨h1, h2⟩ := ih
    have h3 := play_le (Echo.step c nd cwf batch limit sendLimit) s0 as [x] as.length (Nat.le_refl _)
    refine ⟨?_, fun i => ?_⟩
    · rw [List.length_append, List.length_singleton]
      simp only [play, h3, h1, List.getElem?_append_right (Nat.le_refl _), Nat.sub_self, List.getElem?_cons_zero, hs]
    · obtain ⟨i, hi⟩ := i
      simp only [Fin.getElem_fin]
      by_cases hl : i < as.length
      · rw [play_le _ _ _ _ _ (by omega), List.getElem_append_left hl]
        exact h2 ⟨i, hl⟩
      · simp only [List.length_append, List.length_singleton] at hi
        have : i = as.length := by omega
        subst this
        rw [h3, h1, List.getElem_append_right (Nat.le_refl _)]
        simp only [Nat.sub_self, List.getElem_cons_zero, hs, Option.isSome_some]

/-- At rest nothing goes on. -/
theorem Echo.Good.at_rest {c : Cfg} {nd cwf : Bool} {st2 : Bool} {batch limit sendLimit : Nat} (hlim : 0 < limit) {s : Echo} {es : List EEv} (hg : s.Good c true st2 batch limit es) (hq : s.AtRest limit) :
    ∀ x : EAct, x.Internal → s.step c nd cwf batch limit sendLimit x = none := by
  intro x hx
  cases x with
  | up y =>
    simp only [Echo.step, hg.up.settled nd cwf hlim hq.1.1 hq.1.2.1 hq.1.2.2 y hx, Option.map_none, ite_self]
  | down y =>
    simp only [Echo.step, hg.down.settled nd cwf hlim hq.2.1 hq.2.2.1 hq.2.2.2 y hx, Option.map_none, ite_self]
  | echo =>
    have h1 := hg.up.settled nd cwf hlim hq.1.1 hq.1.2.1 hq.1.2.2 (.rx (.ret true)) rfl
    have h2 : s.up.step c nd cwf batch limit (.rx (.ret false)) = none := by
      cases h3 : s.up.step c nd cwf batch limit (.rx (.ret false)) with
      | none => rfl
      | some r =>
        obtain ⟨u, fs, h4⟩ := Pipe.ret_either' h3
        rw [h4] at h1
        cases h1
    simp only [Echo.step, h1, h2, Option.bind_eq_bind, Option.bind_none]
    (repeat' split) <;> first | rfl | simp

theorem Echo.settles {c : Cfg} (hv : c.Valid) (hr : c.bufSize < 256 ^ c.headLen) {nd cwf : Bool} {st2 : Bool} {batch limit sendLimit : Nat} (hlim : 0 < limit) (hsl : 0 < sendLimit) :
    ∀ (n : Nat) (s : Echo) (es : List EEv), s.Good c true st2 batch limit es → s.work c ≤ n →
      ∃ bs s' fs, Echo.Run c nd cwf batch limit sendLimit s bs s' fs ∧ (∀ b ∈ bs, b.Internal) ∧ s'.Good c true st2 batch limit (es ++ fs) ∧ s'.AtRest limit := by
  intro n
  induction n with
  | zero =>
    intro s es hg hw
    rcases Classical.em (s.AtRest limit) with hq | hq
    · exact ⟨[], s, [], .nil s, by simp, by rw [List.append_nil]; exact hg, hq⟩
    · obtain ⟨a, s', fs, a1, a2, a3, a4⟩ := Echo.progress hv hr nd cwf hlim hsl hg hq
      omega
  | succ n ih =>
    intro s es hg hw
    rcases Classical.em (s.AtRest limit) with hq | hq
    · exact ⟨[], s, [], .nil s, by simp, by rw [List.append_nil]; exact hg, hq⟩
    · obtain ⟨a, s', fs, a1, a2, a3, a4⟩ := Echo.progress hv hr nd cwf hlim hsl hg hq
      obtain ⟨bs, s2, gs, b1, b2, b3, b4⟩ := ih s' _ (Echo.step_good hv hr hg a2 a3) (by omega)
      refine ⟨[a] ++ bs, s2, fs ++ gs, Echo.run_trans (Echo.run_one a3) b1, ?_, by rw [← List.append_assoc]; exact b3, b4⟩
      intro b hb
      simp at hb
      rcases hb with rfl | hb
      · exact a1
      · exact b2 b hb

/-- Non-vacuity of C70_no_starvation: whatever happened so far (the run of C70_demo, for example), there is a way to go on for ever that is fair. -/
theorem C70_fair_exists (c : Cfg) (hv : c.Valid) (hh : c.bufSize < 256 ^ c.headLen) (raw1 raw2 : Bytes) (hraw1 : raw1.length = c.bufSize) (hraw2 : raw2.length = c.bufSize) (st2 nd cwf : Bool)
    (batch limit sendLimit : Nat) (hlim : 0 < limit) (hsl : 0 < sendLimit) (s0 s1 : Echo) (as : List EAct) (es : List EEv) (h0 : Echo.init c raw1 raw2 true st2 = some s0)
    (ha : ∀ a ∈ as, a.Honest) (h : Echo.Run c nd cwf batch limit sendLimit s0 as s1 es) :
    ∃ (s : Nat → Echo) (a : Nat → Option EAct) (e : Nat → List EEv), s 0 = s0 ∧ (∀ i, i < as.length → a i = as[i]?) ∧ (∀ n x, a n = some x → x.Honest) ∧
      (∃ N, ∀ n, N ≤ n → ∀ fits, a n ≠ some (.down (.send .heartbeat fits))) ∧ Exec (Echo.step c nd cwf batch limit sendLimit) s a e ∧ e as.length = es ∧ Echo.FairRun (Echo.step c nd cwf batch limit sendLimit) s a := by
  obtain ⟨bs, s', fs, hb, hi, hg, hq⟩ := Echo.settles hv hh (nd := nd) (cwf := cwf) hlim hsl (s1.work c) s1 es (Echo.good_of_run hv hh hraw1 hraw2 h0 ha h) (Nat.le_refl _)
  obtain ⟨p1, p2⟩ := Echo.run_play (Echo.run_trans h hb)
  have hrest : ∀ x : EAct, x.Internal → s'.step c nd cwf batch limit sendLimit x = none := by
    intro x hx
    exact hg.at_rest hlim hq x hx
  have hno : ∀ (cl : EAct → Bool), (∀ x, cl x = true → x.Internal) →
      Fair (Echo.step c nd cwf batch limit sendLimit) (fun n => (play (Echo.step c nd cwf batch limit sendLimit) s0 (as ++ bs) n).1) (fun n => (as ++ bs)[n]?) cl := by
    intro cl hcl
    refine play_fair s0 (as ++ bs) cl (fun x hx => ?_)
    rw [p1]
    exact hrest x (hcl x hx)
  refine ⟨_, _, _, rfl, fun i hil => List.getElem?_append_left hil, ?_, ⟨(as ++ bs).length, fun n hn fits => by rw [List.getElem?_eq_none hn]; simp⟩, play_exec s0 (as ++ bs) p2, ?_, ?_⟩
  · intro n x hx
    rcases List.mem_append.mp (List.mem_of_getElem? hx) with h1 | h1
    · exact ha x h1
    · have := hi x h1
      cases x with
      | up y => cases y <;> first | trivial | simp [EAct.Internal, PAct.Internal] at this
      | _ => trivial
  · rw [play_le _ _ _ _ _ (Nat.le_refl _), (Echo.run_play h).1]
  · refine ⟨fun cl hcl => hno _ (fun x hx => ?_), hno _ (fun x hx => ?_), hno _ (fun x hx => ?_), fun cl hcl => hno _ (fun x hx => ?_), hno _ (fun x hx => ?_), hno _ (fun x hx => ?_)⟩
    · cases x with
      | up y => exact (linkActs_plain hcl hx).2.2.1
      | _ => simp [EAct.upIs] at hx
    · cases x with
      | up y => cases y <;> first | trivial | simp [EAct.upIs, PAct.isTx] at hx
      | _ => simp [EAct.upIs] at hx
    · cases eq_of_beq hx; trivial
    · cases x with
      | down y => exact (linkActs_plain hcl hx).2.2.1
      | _ => simp [EAct.downIs] at hx
    · cases x with
      | down y => cases y <;> first | trivial | simp [EAct.downIs, PAct.isTx] at hx
      | _ => simp [EAct.downIs] at hx
    · cases x with
      | down y =>
        cases y with
        | rx z => simp only [EAct.downIs, PAct.isRx] at hx; cases eq_of_beq hx; rfl
        | _ => simp [EAct.downIs, PAct.isRx] at hx
      | _ => simp [EAct.downIs] at hx

end StAsio
