import Verif.Lemmas.EndToEnd2
import Verif.Spec.Echo
set_option autoImplicit false
namespace StAsio

theorem ups_append (a b : List EEv) : ups (a ++ b) = ups a ++ ups b := by
  induction a with
  | nil => rfl
  | cons e a ih => cases e <;> simp [ups, ih]

theorem downs_append (a b : List EEv) : downs (a ++ b) = downs a ++ downs b := by
  induction a with
  | nil => rfl
  | cons e a ih => cases e <;> simp [downs, ih]

theorem ups_up (l : List PEv) : ups (l.map .up) = l := by
  induction l with
  | nil => rfl
  | cons e l ih => simp [ups, ih]

theorem ups_down (l : List PEv) : ups (l.map .down) = [] := by
  induction l with
  | nil => rfl
  | cons e l ih => simp [ups, ih]

theorem downs_down (l : List PEv) : downs (l.map .down) = l := by
  induction l with
  | nil => rfl
  | cons e l ih => simp [downs, ih]

theorem downs_up (l : List PEv) : downs (l.map .up) = [] := by
  induction l with
  | nil => rfl
  | cons e l ih => simp [downs, ih]

/-- The messages a server has accepted, works on or keeps in its receive buffer were sent by the client and are not empty. -/
theorem Pipe.Good.cur_mem {c : Cfg} {st : Bool} {batch limit : Nat} {s : Pipe} {es : List PEv} (h : s.Good c st batch limit es) {m : Bytes} (hm : s.rx.cur = some m) :
    ∃ b, b ≠ [] ∧ b ∈ sentItems es ∧ m = seen c.headLen st b := by
  obtain ⟨ras, res, r1, r2, r3, r4, p, r5, r6⟩ := h.rx
  have hord := C25_order limit ras s.rx res r1 r2
  obtain ⟨q, hq⟩ := h.arrived s.off h.off
  rw [hq] at r5
  simp only [Prod.mk.injEq] at r5
  have hmem : m ∈ StAsio.arrived c.headLen st (sentItems es) s.off := by
    rw [r5.1, ← hord, hm]; simp
  have := (arrived_prefix c.headLen st (sentItems es) s.off).subset hmem
  simp only [expected, List.mem_map, List.mem_filter, decide_eq_true_eq] at this
  obtain ⟨b, ⟨b1, b2⟩, b3⟩ := this
  exact ⟨b, b2, b1, b3.symm⟩

theorem seen_ne_nil {hl : Nat} {st : Bool} {b : Item} (h : b ≠ []) : seen hl st b ≠ [] := by
  unfold seen
  split
  · exact h
  · intro h0
    have := congrArg List.length h0
    rw [wire_length] at this
    exact h (List.length_eq_zero_iff.mp (by rw [List.length_nil] at this; omega))

/-- The send buffer of a sender at rest is empty. -/
theorem Pipe.Good.quiet_empty {c : Cfg} {st : Bool} {batch limit : Nat} {s : Pipe} {es : List PEv} (h : s.Good c st batch limit es) (h1 : s.tx.Quiet) : s.tx.q.items = [] ∧ s.tx.q.total = 0 := by
  obtain ⟨tas, tes, hrun, hf, hp, hacc⟩ := h.tx
  have hrun' := Tx.run_trans (Tx.run_one (Tx.up_step batch)) hrun
  have hfail : failedSinceUp ([.linkUp] ++ tas) = false := by
    have hg : ∀ as : List TxAct, (∀ a ∈ as, (∀ i, a ≠ .complete i false) ∧ a ≠ .linkUp) → failedSinceUp as = false := by
      intro as h
      unfold failedSinceUp
      induction as with
      | nil => rfl
      | cons a as ih =>
        rw [List.foldl_cons]
        have ha := h a (by simp)
        have := ih (fun x hx => h x (by simp [hx]))
        cases a with
        | complete i ok => cases ok
                           · exact absurd rfl (ha.1 i)
                           · exact this
        | linkUp => exact absurd rfl ha.2
        | _ => exact this
    exact hg tas hf
  have hempty := C22_no_lost_wakeup batch _ s.tx _ hrun' h.ready hfail h1
  refine ⟨hempty, ?_⟩
  have := h.tx_inv.exact
  rw [Q.Exact, hempty] at this
  simpa [sumSize] using this

/-- on_msg_handle returns. -/
theorem Pipe.step_ret {c : Cfg} {nd cwf : Bool} {batch limit : Nat} {s s' : Pipe} {ok : Bool} {fs : List PEv} {m : Bytes} (hm : s.rx.cur = some m)
    (hs : s.step c nd cwf batch limit (.rx (.ret ok)) = some (s', fs)) : fs = [.handled m ok] ∧ s'.tx = s.tx ∧ s.rx.pc = .handling := by
  simp only [Pipe.step, RAct.healthy, if_true] at hs
  rw [Option.map_eq_some_iff] at hs
  obtain ⟨⟨t, tes⟩, h1, h2⟩ := hs
  cases h2
  simp only [Rx.step] at h1
  split at h1
  · cases h1
  · next hpc =>
    rw [hm] at h1
    simp only at h1
    split at h1
    · next ho => cases h1; simp [rxEv, ho]; simpa using hpc
    · next ho => cases h1; simp [rxEv, ho]; simpa using hpc

/-- send_msg(msg) of a message that is not too long. -/
theorem Pipe.step_send_one {c : Cfg} (hv : c.Valid) (hr : c.bufSize < 256 ^ c.headLen) {nd cwf : Bool} {st : Bool} {batch limit : Nat} {s : Pipe} {es : List PEv} (h : s.Good c st batch limit es) (m : Bytes)
    (hm : (SendCall.one m).pack c nd ≠ some none) :
    ∃ s', s.step c nd cwf batch limit (.send (.one m) true) = some (s', [.sent m]) ∧ s'.rx = s.rx ∧ c.headLen + m.length ≤ c.bufSize ∧
      ∃ head : Bytes, head.length = c.headLen ∧ s'.tx = (s.tx.sendList [⟨head, none⟩, ⟨m, none⟩] false).1 ∧ s'.off = s.off ∧ s'.conn = s.conn := by
  obtain ⟨r, hp, hr2⟩ := SendCall.pack_spec hv (nd := nd) hr (.one m) (by simp)
  cases r with
  | none => exact absurd hp hm
  | some bs =>
    simp only [SendCall.single, Bool.false_eq_true, false_and, false_or, SendCall.body] at hr2
    have hbs : bs = [be c.headLen (c.headLen + m.length), m] := by
      have hpk := packHeader_ok c nd m.length (by have := c.headLen_pos; omega) (by omega)
      simp only [SendCall.pack, packOne] at hp
      rw [if_neg (by unfold maxMsgSize; omega)] at hp
      simp only [hpk, Option.bind_eq_bind, Option.bind_some, Option.pure_def, Option.map_some, if_true, List.nil_append, Option.some.injEq] at hp
      exact hp.symm
    obtain ⟨e1, e2, e3⟩ := Tx.sendList_step h.tx_inv (bs.map (fun b => (⟨b, none⟩ : TxMsg)))
    refine ⟨{ s with tx := (s.tx.sendList (bs.map (fun b => (⟨b, none⟩ : TxMsg))) false).1 }, by simp only [Pipe.step, hp, SendCall.single, Bool.false_eq_true, if_false, e3, List.isEmpty_cons, SendCall.body], rfl, hr2.2.1, be c.headLen (c.headLen + m.length), ?_, ?_, rfl, rfl⟩
    · simp [be_length]
    · rw [hbs]; rfl

structure Echo.Good (c : Cfg) (st1 st2 : Bool) (batch limit : Nat) (s : Echo) (es : List EEv) : Prop where
  up : s.up.Good c st1 batch limit (ups es)
  down : s.down.Good c st2 batch limit (downs es)
  tie : (sentItems (downs es)).filter (fun b => b ≠ []) = handledItems (ups es)

theorem Echo.init_good (c : Cfg) (hv : c.Valid) (st1 st2 : Bool) (batch limit : Nat) (raw1 raw2 : Bytes) (hraw1 : raw1.length = c.bufSize) (hraw2 : raw2.length = c.bufSize) :
    ∃ s, Echo.init c raw1 raw2 st1 st2 = some s ∧ Echo.Good c st1 st2 batch limit s [] := by
  obtain ⟨u, u1, u2⟩ := Pipe.init_good c hv st1 batch limit raw1 hraw1
  obtain ⟨d, d1, d2⟩ := Pipe.init_good c hv st2 batch limit raw2 hraw2
  exact ⟨⟨u, d⟩, by simp [Echo.init, u1, d1], u2, d2, rfl⟩

/-- Only on_msg_handle lets the receiver accept messages, only send functions send. -/
theorem Pipe.step_quiet {c : Cfg} {nd cwf : Bool} {batch limit : Nat} {s s' : Pipe} {a : PAct} {fs : List PEv} (hs : s.step c nd cwf batch limit a = some (s', fs)) :
    (a.isRet = false → handledItems fs = []) ∧ (a.isOtherSend = false → ∀ b ∈ sentItems fs, b = []) := by
  cases a with
  | send call fits =>
    simp only [Pipe.step] at hs
    split at hs
    · cases hs; exact ⟨fun _ => rfl, by simp [sentItems]⟩
    · cases hs; exact ⟨fun _ => rfl, by simp [sentItems]⟩
    · simp only [Option.some.injEq, Prod.mk.injEq] at hs
      obtain ⟨_, rfl⟩ := hs
      constructor
      · intro _; generalize (List.isEmpty _) = x; cases x <;> rfl
      · intro hc
        cases call <;> simp [PAct.isOtherSend] at hc
        generalize (List.isEmpty _) = x
        cases x <;> simp [sentItems, SendCall.body]
  | tx a =>
    simp only [Pipe.step] at hs
    split at hs
    · rw [Option.map_eq_some_iff] at hs
      obtain ⟨r, _, hs⟩ := hs
      cases hs; exact ⟨fun _ => rfl, by simp [sentItems]⟩
    · cases hs
  | net k =>
    simp only [Pipe.step] at hs
    have key : ∀ (r : Rx) (res : List REv) (ms : List Bytes), s.rx.step limit (.read ms) = some (r, res) → rAccepted res = [] := by
      intro r res ms h1
      simp only [Rx.step] at h1
      split at h1
      · cases h1
      · split at h1
        · cases h1; rfl
        · split at h1 <;> (cases h1; rfl)
    split at hs
    · split at hs
      · split at hs
        · cases hs; exact ⟨fun _ => rfl, by simp [sentItems]⟩
        · split at hs
          · rw [Option.map_eq_some_iff] at hs
            obtain ⟨r, h1, hs⟩ := hs
            cases hs
            obtain ⟨q1, q2⟩ := handledItems_rxEv r.2
            rw [q1, q2, key r.1 r.2 _ h1]
            simp
          · cases hs; exact ⟨fun _ => rfl, by simp [sentItems]⟩
      · cases hs
    · cases hs
  | rx a =>
    simp only [Pipe.step] at hs
    split at hs
    · next hh =>
      rw [Option.map_eq_some_iff] at hs
      obtain ⟨⟨t, res⟩, h1, hs⟩ := hs
      cases hs
      obtain ⟨q1, q2⟩ := handledItems_rxEv res
      rw [q1, q2]
      refine ⟨fun hr => ?_, by simp⟩
      cases a with
      | ret ok => simp [PAct.isRet] at hr
      | _ =>
        first
          | (simp [RAct.healthy] at hh; done)
          | (simp only [Rx.step] at h1
             (repeat' split at h1) <;> (first | (cases h1; done) | (cases h1; rfl)))
    · cases hs

theorem Echo.step_good {c : Cfg} (hv : c.Valid) (hr : c.bufSize < 256 ^ c.headLen) {nd cwf : Bool} {st1 st2 : Bool} {batch limit sendLimit : Nat} {s s' : Echo} {a : EAct}
    {es fs : List EEv} (h : s.Good c st1 st2 batch limit es) (ha : a.Honest) (hs : s.step c nd cwf batch limit sendLimit a = some (s', fs)) :
    s'.Good c st1 st2 batch limit (es ++ fs) := by
  cases a with
  | up a =>
    simp only [Echo.step] at hs
    split at hs
    · cases hs
    · next hret =>
      rw [Option.map_eq_some_iff] at hs
      obtain ⟨⟨t, tes⟩, h1, h2⟩ := hs
      cases h2
      refine ⟨?_, ?_, ?_⟩
      · rw [ups_append, ups_up]; exact Pipe.step_good hv hr h.up ha h1
      · rw [downs_append, downs_up, List.append_nil]; exact h.down
      · rw [downs_append, downs_up, ups_append, ups_up, handledItems_append, (Pipe.step_quiet h1).1 (by simpa using hret)]
        simpa using h.tie
  | down a =>
    simp only [Echo.step] at hs
    split at hs
    · cases hs
    · next hot =>
      rw [Option.map_eq_some_iff] at hs
      obtain ⟨⟨t, tes⟩, h1, h2⟩ := hs
      cases h2
      have hh : a.Honest := by
        cases a with
        | send call fits => cases call <;> first | trivial | simp [PAct.isOtherSend] at hot
        | _ => trivial
      refine ⟨?_, ?_, ?_⟩
      · rw [ups_append, ups_down, List.append_nil]; exact h.up
      · rw [downs_append, downs_down]; exact Pipe.step_good hv hr h.down hh h1
      · rw [downs_append, downs_down, ups_append, ups_down, List.append_nil, sentItems_append, List.filter_append, h.tie]
        have := (Pipe.step_quiet h1).2 (by simpa using hot)
        rw [List.filter_eq_nil_iff.mpr (by intro b hb; simp [this b hb]), List.append_nil]
  | echo =>
    simp only [Echo.step] at hs
    split at hs
    · cases hs
    · next m hm =>
      split at hs
      · next hacc =>
        have hpack : (SendCall.one m).pack c nd ≠ some none := by
          intro hp
          simp only [Echo.accepts, hp] at hacc
          split at hacc <;> simp at hacc
        obtain ⟨d, d1, d2, d3, d4⟩ := Pipe.step_send_one hv hr (cwf := cwf) h.down m hpack
        rw [d1] at hs
        simp only [Option.bind_eq_bind, Option.bind_some] at hs
        rw [Option.bind_eq_some_iff] at hs
        obtain ⟨⟨u, ues⟩, u1, u2⟩ := hs
        cases u2
        obtain ⟨q1, q2, q3⟩ := Pipe.step_ret hm u1
        subst q1
        have hne : m ≠ [] := by
          obtain ⟨b, b1, b2, b3⟩ := h.up.cur_mem hm
          rw [b3]; exact seen_ne_nil b1
        refine ⟨?_, ?_, ?_⟩
        · rw [ups_append, ups_append, ups_down, ups_up, List.nil_append]; exact Pipe.step_good hv hr h.up (by trivial) u1
        · rw [downs_append, downs_append, downs_down, downs_up, List.append_nil]; exact Pipe.step_good hv hr h.down (by trivial) d1
        · rw [downs_append, downs_append, downs_down, downs_up, ups_append, ups_append, ups_down, ups_up, List.append_nil, List.nil_append, sentItems_append, handledItems_append, List.filter_append, h.tie]
          simp [sentItems, handledItems, hne]
      · simp only [Option.bind_eq_bind] at hs
        rw [Option.bind_eq_some_iff] at hs
        obtain ⟨⟨u, ues⟩, u1, u2⟩ := hs
        cases u2
        obtain ⟨q1, q2, q3⟩ := Pipe.step_ret hm u1
        subst q1
        refine ⟨?_, ?_, ?_⟩
        · rw [ups_append, ups_up]; exact Pipe.step_good hv hr h.up (by trivial) u1
        · rw [downs_append, downs_up, List.append_nil]; exact h.down
        · rw [downs_append, downs_up, ups_append, ups_up, List.append_nil, handledItems_append, h.tie]
          simp [handledItems]

theorem Echo.run_good {c : Cfg} (hv : c.Valid) (hr : c.bufSize < 256 ^ c.headLen) {nd cwf : Bool} {st1 st2 : Bool} {batch limit sendLimit : Nat} {s s' : Echo} {as : List EAct}
    {es fs : List EEv} (h : s.Good c st1 st2 batch limit es) (ha : ∀ a ∈ as, a.Honest) (hrun : Echo.Run c nd cwf batch limit sendLimit s as s' fs) :
    s'.Good c st1 st2 batch limit (es ++ fs) := by
  induction hrun with
  | nil => simpa using h
  | snoc s1 s2 as a es1 fs1 _ hs ih =>
    rw [← List.append_assoc]
    exact Echo.step_good hv hr (ih (fun x hx => ha x (by simp [hx]))) (ha a (by simp)) hs

theorem Echo.run_trans {c : Cfg} {nd cwf : Bool} {batch limit sendLimit : Nat} {s s1 s2 : Echo} {as bs : List EAct} {es fs : List EEv}
    (h1 : Echo.Run c nd cwf batch limit sendLimit s as s1 es) (h2 : Echo.Run c nd cwf batch limit sendLimit s1 bs s2 fs) : Echo.Run c nd cwf batch limit sendLimit s (as ++ bs) s2 (es ++ fs) := by
  induction h2 with
  | nil => simpa using h1
  | snoc s2 s3 bs a fs fs' _ hs ih =>
    rw [← List.append_assoc, ← List.append_assoc]
    exact Echo.Run.snoc _ _ _ _ _ _ _ ih hs

theorem Echo.run_one {c : Cfg} {nd cwf : Bool} {batch limit sendLimit : Nat} {s s1 : Echo} {a : EAct} {es : List EEv} (h : s.step c nd cwf batch limit sendLimit a = some (s1, es)) :
    Echo.Run c nd cwf batch limit sendLimit s [a] s1 es := by
  have := Echo.Run.snoc _ _ _ _ _ _ _ (Echo.Run.nil (c := c) (nd := nd) (cwf := cwf) (batch := batch) (limit := limit) (sendLimit := sendLimit) s) h
  simpa using this

theorem Echo.exec_run {c : Cfg} {nd cwf : Bool} {batch limit sendLimit : Nat} {s s' : Echo} {as : List EAct} {es : List EEv} (h : Echo.exec c nd cwf batch limit sendLimit s as = some (s', es)) :
    Echo.Run c nd cwf batch limit sendLimit s as s' es := by
  induction as generalizing s es with
  | nil => simp [Echo.exec] at h; obtain ⟨rfl, rfl⟩ := h; exact Echo.Run.nil _
  | cons a as ih =>
    simp only [Echo.exec, Option.bind_eq_bind] at h
    rw [Option.bind_eq_some_iff] at h
    obtain ⟨⟨s1, e1⟩, h1, h2⟩ := h
    rw [Option.bind_eq_some_iff] at h2
    obtain ⟨⟨s2, e2⟩, h2, h3⟩ := h2
    simp at h3
    obtain ⟨rfl, rfl⟩ := h3
    exact Echo.run_trans (Echo.run_one h1) (ih h2)

end StAsio
