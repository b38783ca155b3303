import Verif.Model.Statistic
import Verif.Spec.Statistic
import Verif.Props.C20_C23_TcpSend
import Verif.Props.C24_UdpSend
import Verif.Props.C25_C27_RecvDispatch

/-!
# C48: statistics
-/

set_option autoImplicit false

namespace StAsio

/-! ## Counters -/

theorem sentSinceReset_snoc (es : List TxEv) (e : TxEv) :
    sentSinceReset (es ++ [e]) = match e with | .sent ms => sentSinceReset es ++ ms | .cleared _ => [] | _ => sentSinceReset es := by
  simp only [sentSinceReset, List.foldl_append, List.foldl_cons, List.foldl_nil]
  cases e <;> rfl

/-- Events that do not change what was sent. -/
theorem sentSinceReset_skip (es fs : List TxEv) (h : ∀ e ∈ fs, (∀ ms, e ≠ .sent ms) ∧ ∀ ms, e ≠ .cleared ms) : sentSinceReset (es ++ fs) = sentSinceReset es := by
  induction fs generalizing es with
  | nil => simp
  | cons e fs ih =>
    have e1 : es ++ e :: fs = (es ++ [e]) ++ fs := by simp
    rw [e1, ih _ (fun x hx => h x (by simp [hx])), sentSinceReset_snoc]
    have := h e (by simp)
    cases e <;> simp_all

theorem setPromises_skip (ms : List TxMsg) (r : SyncRes) : ∀ e ∈ setPromises ms r, (∀ ms, e ≠ TxEv.sent ms) ∧ ∀ ms, e ≠ TxEv.cleared ms := by
  intro e he
  simp only [setPromises, List.mem_filterMap] at he
  obtain ⟨m, _, h⟩ := he
  cases hp : m.p with
  | none => rw [hp] at h; cases h
  | some p => rw [hp] at h; simp at h; subst h; simp

theorem setPromises_sent (es : List TxEv) (ms ns : List TxMsg) (r : SyncRes) : sentSinceReset (es ++ (setPromises ms r ++ [.sent ns])) = sentSinceReset es ++ ns := by
  rw [← List.append_assoc, sentSinceReset_snoc, sentSinceReset_skip _ _ (setPromises_skip ms r)]

theorem Tx.run_of_cnt {batch : Nat} {s s' : Tx} {c c' : Cnt} {as : List TxAct} {es : List TxEv} (h : Tx.RunCnt batch s c as s' c' es) : Tx.Run batch s as s' es := by
  induction h with
  | nil => exact .nil _
  | snoc s1 c1 s2 as a es es' _ hs ih => exact .snoc _ _ _ _ _ _ _ ih hs

theorem TxMsg.bytes_length (ms : List TxMsg) : (TxMsg.bytes ms).length = (ms.map (fun m => m.data.length)).sum := by
  induction ms with
  | nil => rfl
  | cons m ms ih => simp only [TxMsg.bytes, List.map_cons, List.flatten_cons, List.length_append, List.sum_cons]; rw [← ih]; rfl

/-- Counters agree with a list of messages. -/
def Cnt.agrees (c : Cnt) (ms : List TxMsg) : Prop := c.msgs = ms.length % 2 ^ 64 ∧ c.bytes = (ms.map (fun m => m.data.length)).sum % 2 ^ 64

theorem Cnt.tcp_step {batch : Nat} {s s' : Tx} {c : Cnt} {a : TxAct} {es fs : List TxEv} (hi : s.Inv) (hc : c.agrees (sentSinceReset es))
    (hb : s.writes ≠ [] ∨ s.dones ≠ [] → c.nbuf = s.sendingMsgs.length) (hs : s.step batch a = some (s', fs)) :
    (c.tcp batch s a).agrees (sentSinceReset (es ++ fs)) ∧ (s'.writes ≠ [] ∨ s'.dones ≠ [] → (c.tcp batch s a).nbuf = s'.sendingMsgs.length) := by
  cases a with
  | handler i =>
    simp only [Tx.step] at hs
    cases hd : s.dones[i]? with
    | none => rw [hd] at hs; cases hs
    | some d =>
      rw [hd] at hs
      simp only [Option.bind_eq_bind, Option.bind_some] at hs
      split at hs
      · cases hs
      · have hmem := List.mem_of_getElem? hd
        have hbuf := (hi.dbufs d hmem).1
        have hown := hi.owner
        have hlen : s.dones.length = 1 ∧ s.writes = [] := by
          have h1 : 0 < s.dones.length := List.length_pos_of_mem hmem
          have h2 : s.writes.length + s.dones.length ≤ 1 := by split at hown <;> omega
          exact ⟨by omega, List.eq_nil_of_length_eq_zero (by omega)⟩
        have hn := hb (Or.inr (by intro e; rw [e] at hmem; cases hmem))
        have hz : (s.dones.eraseIdx i) = [] := by
          apply List.eq_nil_of_length_eq_zero
          have hi2 : i < s.dones.length := (List.getElem?_eq_some_iff.mp hd).1
          rw [List.length_eraseIdx, if_pos hi2]; omega
        simp only [Tx.handler] at hs
        simp only [Cnt.tcp, hd]
        by_cases hok : d.ok = true
        · simp only [hok, if_true, Option.some.injEq, Prod.mk.injEq] at hs ⊢
          obtain ⟨rfl, rfl⟩ := hs
          constructor
          · rw [setPromises_sent]
            simp only [Cnt.agrees, Cnt.add, List.length_append, List.map_append, List.sum_append, hbuf, hn, TxMsg.bytes_length]
            obtain ⟨e1, e2⟩ := hc
            rw [e1, e2]
            constructor <;> omega
          · intro h; simp only [hlen.2, hz] at h; simp at h
        · simp only [hok, if_false, Option.some.injEq, Prod.mk.injEq, Bool.false_eq_true] at hs ⊢
          obtain ⟨rfl, rfl⟩ := hs
          constructor
          · rw [← List.append_assoc, sentSinceReset_snoc, sentSinceReset_skip _ _ (setPromises_skip _ _)]; exact hc
          · intro h; simp only [hlen.2, hz] at h; simp at h
  | strand =>
    simp only [Tx.step, Tx.strand] at hs
    simp only [Cnt.tcp]
    have hagr : ∀ n, ({ c with nbuf := n } : Cnt).agrees (sentSinceReset es) := fun _ => hc
    split at hs
    · cases hs
    · rename_i hpc
      rw [hpc]
      split at hs <;> (simp only [Option.some.injEq, Prod.mk.injEq] at hs; obtain ⟨rfl, rfl⟩ := hs; simp only [List.append_nil]; exact ⟨hc, hb⟩)
    · rename_i hpc
      rw [if_pos hpc]
      split at hs
      · simp only [Option.some.injEq, Prod.mk.injEq] at hs
        obtain ⟨rfl, rfl⟩ := hs
        rw [List.append_nil]
        exact ⟨hagr _, fun _ => rfl⟩
      · simp only [Option.some.injEq, Prod.mk.injEq] at hs
        obtain ⟨rfl, rfl⟩ := hs
        rw [sentSinceReset_snoc]
        exact ⟨hagr _, fun _ => rfl⟩
    · rename_i hpc
      rw [hpc]
      simp only [Option.some.injEq, Prod.mk.injEq] at hs; obtain ⟨rfl, rfl⟩ := hs; simp only [List.append_nil]; exact ⟨hc, hb⟩
    · rename_i hpc
      rw [hpc]
      simp only [Option.some.injEq, Prod.mk.injEq] at hs; obtain ⟨rfl, rfl⟩ := hs; simp only [List.append_nil]; exact ⟨hc, hb⟩
    · rename_i hpc
      rw [hpc]
      simp only [Option.some.injEq, Prod.mk.injEq] at hs; obtain ⟨rfl, rfl⟩ := hs; simp only [List.append_nil]; exact ⟨hc, hb⟩
  | reset =>
    simp only [Tx.step] at hs
    split at hs
    · cases hs
    · rename_i hr
      have hn : s.noAsync = true := by cases h : s.noAsync <;> simp_all
      obtain ⟨_, _, hw, hd⟩ := noAsync_true hn
      simp only [Option.some.injEq, Prod.mk.injEq] at hs
      obtain ⟨rfl, rfl⟩ := hs
      rw [sentSinceReset_snoc]
      exact ⟨⟨rfl, rfl⟩, fun h => by simp [hw, hd] at h⟩
  | send m p f =>
    simp only [Tx.step, Tx.send, Option.some.injEq] at hs
    (repeat' split at hs) <;> cases hs <;> simp only [Cnt.tcp, List.append_nil, sentSinceReset_snoc] <;> exact ⟨hc, hb⟩
  | sendList ms p =>
    simp only [Tx.step, Tx.sendList, Option.some.injEq] at hs
    (repeat' split at hs) <;> cases hs <;> simp only [Cnt.tcp, List.append_nil, sentSinceReset_snoc] <;> exact ⟨hc, hb⟩
  | loadReady => simp only [Tx.step] at hs; split at hs <;> cases hs; simp only [Cnt.tcp, List.append_nil]; exact ⟨hc, hb⟩
  | loadFlag => simp only [Tx.step] at hs; split at hs <;> cases hs; simp only [Cnt.tcp, List.append_nil]; exact ⟨hc, hb⟩
  | runPosted => simp only [Tx.step] at hs; split at hs <;> cases hs; simp only [Cnt.tcp, List.append_nil]; exact ⟨hc, hb⟩
  | transfer i k =>
    simp only [Tx.step] at hs
    cases hw : s.writes[i]? with
    | none => rw [hw] at hs; cases hs
    | some w =>
      rw [hw] at hs
      simp only [Option.bind_eq_bind, Option.bind_some] at hs
      split at hs
      · cases hs
      · cases hs
        simp only [Cnt.tcp, List.append_nil]
        exact ⟨hc, fun _ => hb (Or.inl (fun e => by rw [e] at hw; cases hw))⟩
  | complete i ok =>
    simp only [Tx.step] at hs
    cases hw : s.writes[i]? with
    | none => rw [hw] at hs; cases hs
    | some w =>
      rw [hw] at hs
      simp only [Option.bind_eq_bind, Option.bind_some] at hs
      split at hs
      · cases hs
      · cases hs
        simp only [Cnt.tcp, List.append_nil]
        exact ⟨hc, fun _ => hb (Or.inl (fun e => by rw [e] at hw; cases hw))⟩
  | pop =>
    simp only [Tx.step] at hs
    split at hs <;> cases hs
    · simp only [Cnt.tcp, List.append_nil]; exact ⟨hc, hb⟩
    · simp only [Cnt.tcp]
      rw [← List.append_assoc, sentSinceReset_snoc, sentSinceReset_skip _ _ (setPromises_skip _ _)]; exact ⟨hc, hb⟩
  | popAll =>
    simp only [Tx.step] at hs
    cases hs
    simp only [Cnt.tcp]
    rw [← List.append_assoc, sentSinceReset_snoc, sentSinceReset_skip _ _ (setPromises_skip _ _)]; exact ⟨hc, hb⟩
  | shrink n =>
    simp only [Tx.step] at hs
    cases hs
    simp only [Cnt.tcp, sentSinceReset_snoc]; exact ⟨hc, hb⟩
  | linkUp => simp only [Tx.step] at hs; split at hs <;> cases hs; simp only [Cnt.tcp, List.append_nil]; exact ⟨hc, hb⟩
  | linkDown => simp only [Tx.step] at hs; cases hs; simp only [Cnt.tcp, List.append_nil]; exact ⟨hc, hb⟩
  | onClose =>
    simp only [Tx.step, Tx.onClose] at hs
    split at hs <;> cases hs
    simp only [Cnt.tcp]
    rw [sentSinceReset_skip _ _ (setPromises_skip _ _)]; exact ⟨hc, hb⟩

/-- C48, TCP sending: after every history the counters are, modulo 2^64, the number and the total size of the messages reported as sent since the last reset. -/
theorem C48_tcp_send (batch : Nat) (as : List TxAct) (s : Tx) (c : Cnt) (es : List TxEv) (h : Tx.RunCnt batch Tx.init Cnt.zero as s c es) :
    c.msgs = (sentSinceReset es).length % 2 ^ 64 ∧ c.bytes = ((sentSinceReset es).map (fun m => m.data.length)).sum % 2 ^ 64 := by
  have key : c.agrees (sentSinceReset es) ∧ (s.writes ≠ [] ∨ s.dones ≠ [] → c.nbuf = s.sendingMsgs.length) := by
    generalize h0 : Tx.init = s0 at h
    generalize h1 : Cnt.zero = c0 at h
    induction h with
    | nil => subst h0 h1; exact ⟨⟨rfl, rfl⟩, fun h => by simp [Tx.init] at h⟩
    | snoc s1 c1 s2 as a es es' hr hs ih =>
      have hi : s1.Inv := by subst h0; exact (Tx.run_inv Tx.init_inv (Tx.run_of_cnt hr)).1
      exact Cnt.tcp_step hi ih.1 ih.2 hs
  exact key.1

theorem uSentSinceReset_snoc (es : List UEv) (e : UEv) :
    uSentSinceReset (es ++ [e]) = match e with | .sent m => uSentSinceReset es ++ [m] | .cleared _ => [] | _ => uSentSinceReset es := by
  simp only [uSentSinceReset, List.foldl_append, List.foldl_cons, List.foldl_nil]
  cases e <;> rfl

theorem uSentSinceReset_skip (es fs : List UEv) (h : ∀ e ∈ fs, (∀ m, e ≠ .sent m) ∧ ∀ ms, e ≠ .cleared ms) : uSentSinceReset (es ++ fs) = uSentSinceReset es := by
  induction fs generalizing es with
  | nil => simp
  | cons e fs ih =>
    have e1 : es ++ e :: fs = (es ++ [e]) ++ fs := by simp
    rw [e1, ih _ (fun x hx => h x (by simp [hx])), uSentSinceReset_snoc]
    have := h e (by simp)
    cases e <;> simp_all

theorem uPromise_skip (m : UMsg) (r : SyncRes) : ∀ e ∈ uPromise m r, (∀ m, e ≠ UEv.sent m) ∧ ∀ ms, e ≠ UEv.cleared ms := by
  intro e he
  rcases uPromise_cases m r with ⟨h, _⟩ | ⟨p, _, h⟩ <;> rw [h] at he <;> simp at he
  subst he; simp

theorem uPromises_skip (ms : List UMsg) (r : SyncRes) : ∀ e ∈ uPromises ms r, (∀ m, e ≠ UEv.sent m) ∧ ∀ ms, e ≠ UEv.cleared ms := by
  intro e he
  simp only [uPromises, List.mem_flatten, List.mem_map] at he
  obtain ⟨l, ⟨m, _, rfl⟩, h⟩ := he
  exact uPromise_skip m r e h

theorem Ux.run_of_cnt {conn : Bool} {s s' : Ux} {c c' : Cnt} {as : List UAct} {es : List UEv} (h : Ux.RunCnt conn s c as s' c' es) : Ux.Run conn s as s' es := by
  induction h with
  | nil => exact .nil _
  | snoc s1 c1 s2 as a es es' _ hs ih => exact .snoc _ _ _ _ _ _ _ ih hs

def Cnt.uAgrees (c : Cnt) (ms : List UMsg) : Prop := c.msgs = ms.length % 2 ^ 64 ∧ c.bytes = (ms.map (fun m => m.data.length)).sum % 2 ^ 64

theorem Cnt.udp_step {conn : Bool} {s s' : Ux} {c : Cnt} {a : UAct} {es fs : List UEv} (hi : s.Inv) (hc : c.uAgrees (uSentSinceReset es)) (hs : s.step conn a = some (s', fs)) :
    (c.udp s a).uAgrees (uSentSinceReset (es ++ fs)) := by
  have skip : ∀ fs : List UEv, (∀ e ∈ fs, (∀ m, e ≠ UEv.sent m) ∧ ∀ ms, e ≠ UEv.cleared ms) → c.uAgrees (uSentSinceReset (es ++ fs)) := by
    intro fs h; rw [uSentSinceReset_skip _ _ h]; exact hc
  cases a with
  | handler i =>
    simp only [Ux.step] at hs
    cases hd : s.dones[i]? with
    | none => rw [hd] at hs; cases hs
    | some d =>
      rw [hd] at hs
      simp only [Option.bind_eq_bind, Option.bind_some] at hs
      split at hs
      · cases hs
      · have hcur := hi.dcur d (List.mem_of_getElem? hd)
        simp only [Ux.handler, hcur] at hs
        simp only [Cnt.udp, hd]
        by_cases hok : d.ok = true
        · simp only [hok, if_true, Option.some.injEq, Prod.mk.injEq] at hs ⊢
          obtain ⟨rfl, rfl⟩ := hs
          rw [← List.append_assoc, uSentSinceReset_snoc, uSentSinceReset_skip _ _ (uPromise_skip _ _)]
          simp only [Cnt.uAgrees, Cnt.add, List.length_append, List.map_append, List.sum_append]
          obtain ⟨e1, e2⟩ := hc
          rw [e1, e2]
          simp
        · simp only [hok, if_false, Option.some.injEq, Prod.mk.injEq, Bool.false_eq_true] at hs ⊢
          obtain ⟨rfl, rfl⟩ := hs
          rw [← List.append_assoc, uSentSinceReset_snoc, uSentSinceReset_skip _ _ (uPromise_skip _ _)]
          exact hc
  | reset =>
    simp only [Ux.step] at hs
    split at hs <;> cases hs
    rw [uSentSinceReset_snoc]; exact ⟨rfl, rfl⟩
  | send m p f =>
    simp only [Ux.step] at hs
    (repeat' split at hs) <;> cases hs <;> simp only [Cnt.udp] <;> apply skip <;> simp
  | loadReady => simp only [Ux.step] at hs; split at hs <;> cases hs; apply skip; simp
  | loadFlag => simp only [Ux.step] at hs; split at hs <;> cases hs; apply skip; simp
  | runPosted => simp only [Ux.step] at hs; split at hs <;> cases hs; apply skip; simp
  | strand a b =>
    simp only [Ux.step, Ux.strand] at hs
    (repeat' split at hs) <;> cases hs <;> simp only [Cnt.udp] <;> apply skip <;> simp
  | timerCC => simp only [Ux.step] at hs; split at hs <;> cases hs; apply skip; simp
  | timerLost => simp only [Ux.step] at hs; split at hs <;> cases hs; apply skip; simp
  | resumeCheck => simp only [Ux.step] at hs; split at hs <;> cases hs; apply skip; simp
  | complete i ok fatal =>
    simp only [Ux.step] at hs
    cases hw : s.writes[i]? with
    | none => rw [hw] at hs; cases hs
    | some w => rw [hw] at hs; simp only [Option.bind_eq_bind, Option.bind_some] at hs; cases hs; apply skip; simp
  | pop =>
    simp only [Ux.step] at hs
    split at hs <;> cases hs
    · apply skip; simp
    · apply skip
      intro e he
      simp only [List.mem_append, List.mem_singleton] at he
      rcases he with he | rfl
      · exact uPromises_skip _ _ e he
      · simp
  | popAll =>
    simp only [Ux.step] at hs
    cases hs
    apply skip
    intro e he
    simp only [List.mem_append, List.mem_singleton] at he
    rcases he with he | rfl
    · exact uPromises_skip _ _ e he
    · simp
  | shrink n => simp only [Ux.step] at hs; cases hs; apply skip; simp
  | linkUp => simp only [Ux.step] at hs; split at hs <;> cases hs; apply skip; simp
  | onClose =>
    simp only [Ux.step] at hs
    split at hs <;> cases hs
    apply skip
    intro e he
    simp only [List.mem_flatMap] at he
    obtain ⟨m, _, h⟩ := he
    exact uPromise_skip m _ e h

/-- C48, UDP sending: after every history the counters are, modulo 2^64, the number and the total size of the messages reported as sent since the last reset. -/
theorem C48_udp_send (conn : Bool) (as : List UAct) (s : Ux) (c : Cnt) (es : List UEv) (h : Ux.RunCnt conn Ux.init Cnt.zero as s c es) :
    c.msgs = (uSentSinceReset es).length % 2 ^ 64 ∧ c.bytes = ((uSentSinceReset es).map (fun m => m.data.length)).sum % 2 ^ 64 := by
  have key : c.uAgrees (uSentSinceReset es) := by
    generalize h0 : Ux.init = s0 at h
    generalize h1 : Cnt.zero = c0 at h
    induction h with
    | nil => subst h0 h1; exact ⟨rfl, rfl⟩
    | snoc s1 c1 s2 as a es es' hr hs ih =>
      have hi : s1.Inv := by subst h0; exact (Ux.run_ok (Ux.run_of_cnt hr)).1
      exact Cnt.udp_step hi ih hs
  exact key

theorem receivedSinceReset_snoc (es : List REv) (e : REv) :
    receivedSinceReset (es ++ [e]) = match e with | .received ms => receivedSinceReset es ++ ms | .cleared => [] | _ => receivedSinceReset es := by
  simp only [receivedSinceReset, List.foldl_append, List.foldl_cons, List.foldl_nil]
  cases e <;> rfl

theorem sumSize_rsz (ms : List Bytes) : sumSize rsz ms = (ms.map List.length).sum := by
  induction ms with
  | nil => rfl
  | cons m ms ih => simp only [sumSize_cons, ih, List.map_cons, List.sum_cons, rsz]

theorem moveIn_isSome (q : Q Bytes) (ms : List Bytes) : q.moveIn rsz ms (getSizeInByte rsz ms) ≠ none := by
  simp only [Q.moveIn, Q.declared]
  by_cases h : getSizeInByte rsz ms = 0 <;> simp [h]

/-- C48, receiving: after every history the counters are, modulo 2^64, the number and the total size of the messages received since the last reset. -/
theorem C48_recv (limit : Nat) (as : List RAct) (s : Rx) (c : Cnt) (es : List REv) (h : Rx.RunCnt limit Rx.init Cnt.zero as s c es) :
    c.msgs = (receivedSinceReset es).length % 2 ^ 64 ∧ c.bytes = ((receivedSinceReset es).map List.length).sum % 2 ^ 64 := by
  generalize h0 : Rx.init = s0 at h
  generalize h1 : Cnt.zero = c0 at h
  induction h with
  | nil => subst h1; exact ⟨rfl, rfl⟩
  | snoc s1 c1 s2 as a es es' hr hs ih =>
    obtain ⟨i1, i2⟩ := ih
    cases a with
    | read ms =>
      simp only [Rx.step] at hs
      split at hs
      · cases hs
      · split at hs
        · rename_i hm
          cases hs
          have : ms = [] := by simpa using hm
          subst this
          simp only [Cnt.recv, Cnt.add, List.append_nil, i1, i2]
          constructor <;> simp [getSizeInByte]
        · split at hs
          · rename_i e; exact absurd e (moveIn_isSome _ _)
          · cases hs
            rw [receivedSinceReset_snoc]
            simp only [Cnt.recv, Cnt.add, List.length_append, List.map_append, List.sum_append, i1, i2, getSizeInByte_eq, sumSize_rsz]
            constructor <;> omega
    | reset => simp only [Rx.step] at hs; split at hs <;> cases hs; rw [receivedSinceReset_snoc]; exact ⟨rfl, rfl⟩
    | dis => simp only [Rx.step] at hs; (repeat' split at hs) <;> cases hs <;> simp only [Cnt.recv, List.append_nil] <;> exact ⟨i1, i2⟩
    | _ => simp only [Rx.step] at hs; (repeat' split at hs) <;> cases hs <;> simp only [Cnt.recv, List.append_nil, receivedSinceReset_snoc] <;> exact ⟨i1, i2⟩

/-! ## Demonstrations on the histories of C20, C24 and C25 -/

theorem Tx.cnt_exists {batch : Nat} {s s' : Tx} {as : List TxAct} {es : List TxEv} (h : Tx.Run batch s as s' es) (c : Cnt) : ∃ c', Tx.RunCnt batch s c as s' c' es := by
  induction h with
  | nil => exact ⟨c, .nil _ _⟩
  | snoc s1 s2 as a es es' _ hs ih => obtain ⟨c1, h1⟩ := ih; exact ⟨_, .snoc _ _ _ _ _ _ _ _ _ h1 hs⟩

theorem Ux.cnt_exists {conn : Bool} {s s' : Ux} {as : List UAct} {es : List UEv} (h : Ux.Run conn s as s' es) (c : Cnt) : ∃ c', Ux.RunCnt conn s c as s' c' es := by
  induction h with
  | nil => exact ⟨c, .nil _ _⟩
  | snoc s1 s2 as a es es' _ hs ih => obtain ⟨c1, h1⟩ := ih; exact ⟨_, .snoc _ _ _ _ _ _ _ _ _ h1 hs⟩

theorem Rx.cnt_exists {limit : Nat} {s s' : Rx} {as : List RAct} {es : List REv} (h : Rx.Run limit s as s' es) (c : Cnt) : ∃ c', Rx.RunCnt limit s c as s' c' es := by
  induction h with
  | nil => exact ⟨c, .nil _ _⟩
  | snoc s1 s2 as a es es' _ hs ih => obtain ⟨c1, h1⟩ := ih; exact ⟨_, .snoc _ _ _ _ _ _ _ _ _ h1 hs⟩

/-- The counters of txDemo (two messages of 2 and 1 bytes sent), and after a reset. -/
example : ∃ s c es, Tx.RunCnt 0 Tx.init Cnt.zero txDemo s c es ∧ c.msgs = 2 ∧ c.bytes = 3 := by
  have h : ∃ r, Tx.exec 0 Tx.init txDemo = some r := by exact ⟨_, rfl⟩
  obtain ⟨⟨s, es⟩, h⟩ := h
  obtain ⟨c, hc⟩ := Tx.cnt_exists (Tx.exec_run h) Cnt.zero
  have e : some (s, es) = some _ := h.symm.trans rfl
  cases e
  have := C48_tcp_send _ _ _ _ _ hc
  exact ⟨_, c, _, hc, this.1.trans (by decide), this.2.trans (by decide)⟩

/-- The counters of uxDemo: of three messages one failed, the others have 1 byte each. -/
example : ∃ s c es, Ux.RunCnt true Ux.init Cnt.zero uxDemo s c es ∧ c.msgs = 2 ∧ c.bytes = 2 := by
  have h : ∃ r, Ux.exec true Ux.init uxDemo = some r := by exact ⟨_, rfl⟩
  obtain ⟨⟨s, es⟩, h⟩ := h
  obtain ⟨c, hc⟩ := Ux.cnt_exists (Ux.exec_run h) Cnt.zero
  have e : some (s, es) = some _ := h.symm.trans rfl
  cases e
  have := C48_udp_send _ _ _ _ _ hc
  exact ⟨_, c, _, hc, this.1.trans (by decide), this.2.trans (by decide)⟩

/-- The counters of rxDemo: messages of 1, 2, 3 and 1 bytes. -/
example : ∃ s c es, Rx.RunCnt 4 Rx.init Cnt.zero rxDemo s c es ∧ c.msgs = 4 ∧ c.bytes = 7 := by
  have h : ∃ r, Rx.exec 4 Rx.init rxDemo = some r := by exact ⟨_, rfl⟩
  obtain ⟨⟨s, es⟩, h⟩ := h
  obtain ⟨c, hc⟩ := Rx.cnt_exists (Rx.exec_run h) Cnt.zero
  have e : some (s, es) = some _ := h.symm.trans rfl
  cases e
  have := C48_recv _ _ _ _ _ hc
  exact ⟨_, c, _, hc, this.1.trans (by decide), this.2.trans (by decide)⟩

/-! ## Durations -/

theorem Dur.of_snoc (xs : List Int) (x : Int) : Dur.of (xs ++ [x]) = (Dur.of xs).add x := by
  simp [Dur.of, List.foldl_append]

theorem smallest_snoc (xs : List Int) (x : Int) : smallest (xs ++ [x]) = some (match smallest xs with | none => x | some m => min m x) := by
  induction xs with
  | nil => rfl
  | cons y ys ih =>
    simp only [List.cons_append, smallest, ih]
    cases smallest ys with
    | none => rfl
    | some m => simp only [Option.some.injEq]; omega

theorem largest_snoc (xs : List Int) (x : Int) : largest (xs ++ [x]) = some (match largest xs with | none => x | some m => max m x) := by
  induction xs with
  | nil => rfl
  | cons y ys ih =>
    simp only [List.cons_append, largest, ih]
    cases largest ys with
    | none => rfl
    | some m => simp only [Option.some.injEq]; omega

@[elab_as_elim] theorem rev_ind {α : Type} {P : List α → Prop} (h0 : P []) (h1 : ∀ xs x, P xs → P (xs ++ [x])) (xs : List α) : P xs := by
  have : ∀ ys : List α, P ys.reverse := by
    intro ys
    induction ys with
    | nil => exact h0
    | cons y ys ih => rw [List.reverse_cons]; exact h1 _ _ ih
  have h := this xs.reverse
  rwa [List.reverse_reverse] at h

/-- C48, durations: whatever was measured, the accumulated duration is the sum of the measurements and the count is their number. -/
theorem C48_duration_sum (xs : List Int) : (Dur.of xs).sum = xs.sum ∧ (Dur.of xs).num = xs.length := by
  refine rev_ind ⟨rfl, rfl⟩ (fun xs x ih => ?_) xs
  rw [Dur.of_snoc]
  simp only [Dur.add, ih.1, ih.2, List.sum_append, List.length_append, List.sum_cons, List.sum_nil, List.length_cons, List.length_nil]
  constructor <;> omega

/-- C48, durations: if no measurement is negative, the largest one is right. -/
theorem C48_duration_max (xs : List Int) (hne : xs ≠ []) (h : ∀ x ∈ xs, 0 ≤ x) : some (Dur.of xs).max = largest xs := by
  have key : (∀ x ∈ xs, 0 ≤ x) → largest xs = if xs = [] then none else some (Dur.of xs).max := by
    have h2 : (∀ x ∈ xs, 0 ≤ x) → (0 ≤ (Dur.of xs).max ∧ (xs = [] → (Dur.of xs).max = 0)) ∧ largest xs = if xs = [] then none else some (Dur.of xs).max := by
      refine rev_ind (fun _ => ⟨by decide, rfl⟩) (fun xs x ih hx => ?_) xs
      obtain ⟨⟨i1, i2⟩, i3⟩ := ih (fun y hy => hx y (by simp [hy]))
      have h0 := hx x (by simp)
      rw [Dur.of_snoc, largest_snoc, i3]
      simp only [Dur.add]
      by_cases he : xs = []
      · have := i2 he
        simp only [he, if_true]
        simp only [he] at this
        refine ⟨⟨by split <;> omega, by simp⟩, ?_⟩
        simp only [List.nil_append, List.cons_ne_nil, if_false, this, Option.some.injEq]
        split <;> omega
      · simp only [he, if_false]
        refine ⟨⟨by split <;> omega, by simp⟩, ?_⟩
        simp only [List.append_eq_nil_iff, List.cons_ne_nil, and_false, if_false, Option.some.injEq]
        rw [Int.max_def]
        (repeat' split) <;> omega
    exact fun hx => (h2 hx).2
  rw [key h, if_neg hne]

/-- C48, durations: if every measurement is positive, the smallest one is right. Missing from the full statement: measurements that are 0 (`C48_fails_min_zero`). -/
theorem C48_duration_min_partial (xs : List Int) (hne : xs ≠ []) (h : ∀ x ∈ xs, 0 < x) : some (Dur.of xs).min = smallest xs := by
  have h2 : (∀ x ∈ xs, 0 < x) → (xs = [] → (Dur.of xs).min = 0) ∧ (xs ≠ [] → 0 < (Dur.of xs).min) ∧ smallest xs = if xs = [] then none else some (Dur.of xs).min := by
    refine rev_ind (fun _ => ⟨fun _ => rfl, fun h => absurd rfl h, rfl⟩) (fun xs x ih hx => ?_) xs
    obtain ⟨i1, i2, i3⟩ := ih (fun y hy => hx y (by simp [hy]))
    have h0 := hx x (by simp)
    rw [Dur.of_snoc, smallest_snoc, i3]
    simp only [Dur.add]
    by_cases he : xs = []
    · have := i1 he
      subst he
      simp only [this, true_or, if_true]
      exact ⟨fun h => by simp at h, fun _ => h0, by simp⟩
    · have hp := i2 he
      simp only [he, if_false]
      refine ⟨fun h => by simp at h, fun _ => by split <;> omega, ?_⟩
      simp only [List.append_eq_nil_iff, List.cons_ne_nil, and_false, if_false, Option.some.injEq]
      rw [Int.min_def]
      (repeat' split) <;> omega
  rw [(h2 h).2.2, if_neg hne]

theorem Dur.of_min_pos (xs : List Int) : (∀ x ∈ xs, 0 < x) → 0 ≤ (Dur.of xs).min ∧ (xs ≠ [] → 0 < (Dur.of xs).min) := by
  refine rev_ind (fun _ => ⟨by decide, fun h => absurd rfl h⟩) (fun xs x ih hx => ?_) xs
  have i1 := (ih (fun y hy => hx y (by simp [hy]))).1
  have h0 := hx x (by simp)
  rw [Dur.of_snoc]
  simp only [Dur.add]
  constructor
  · split <;> omega
  · intro _; split <;> omega

theorem Dur.merge_add (d o : Dur) (y : Int) (hd : 0 ≤ d.min) (ho : 0 < o.min) (_hy : 0 < y) : d.merge (o.add y) = (d.merge o).add y := by
  simp only [Dur.merge, Dur.add, Dur.mk.injEq]
  refine ⟨by omega, ?_, ?_, by omega⟩ <;> (repeat' split) <;> omega

/-- C48: adding up the durations of two sockets gives what one socket with all measurements would show, if every measurement is positive and the second socket has some. Missing: an empty second duration (`C48_fails_merge_empty`). -/
theorem C48_duration_merge_partial (xs ys : List Int) (hy : ys ≠ []) (hx : ∀ x ∈ xs ++ ys, 0 < x) : (Dur.of xs).merge (Dur.of ys) = Dur.of (xs ++ ys) := by
  have hd : 0 ≤ (Dur.of xs).min := (Dur.of_min_pos xs (fun x h => hx x (by simp [h]))).1
  have key : (∀ y ∈ ys, 0 < y) → ys ≠ [] → (Dur.of xs).merge (Dur.of ys) = Dur.of (xs ++ ys) := by
    refine rev_ind (fun _ h => absurd rfl h) (fun ys y ih hp _ => ?_) ys
    have hy0 : 0 < y := hp y (by simp)
    have hps : ∀ z ∈ ys, 0 < z := fun z hz => hp z (by simp [hz])
    rw [← List.append_assoc, Dur.of_snoc, Dur.of_snoc]
    by_cases he : ys = []
    · subst he
      rw [List.append_nil]
      generalize Dur.of xs = d at hd
      simp only [Dur.of, List.foldl_nil, Dur.zero, Dur.merge, Dur.add, Dur.mk.injEq]
      refine ⟨by omega, ?_, ?_, by omega⟩ <;> grind
    · rw [Dur.merge_add _ _ _ hd ((Dur.of_min_pos ys hps).2 he) hy0, ih hps he]
  exact key (fun y h => hx y (by simp [h])) hy

/-- C48: whatever was measured, the sum and the count of two durations add up, and taking one away again gives back the other's. -/
theorem C48_duration_sub (xs ys : List Int) :
    ((Dur.of xs).merge (Dur.of ys)).sum = (xs ++ ys).sum ∧ ((Dur.of xs).merge (Dur.of ys)).num = (xs ++ ys).length ∧
    (((Dur.of xs).merge (Dur.of ys)).sub (Dur.of ys)).sum = xs.sum ∧ (((Dur.of xs).merge (Dur.of ys)).sub (Dur.of ys)).num = xs.length := by
  obtain ⟨a1, a2⟩ := C48_duration_sum xs
  obtain ⟨b1, b2⟩ := C48_duration_sum ys
  simp only [Dur.merge, Dur.sub, a1, a2, b1, b2, List.sum_append, List.length_append]
  refine ⟨trivial, ?_, ?_, ?_⟩ <;> omega

/-- C48: adding statistics up and taking them away again gives back every counter. -/
theorem C48_counter_sub (a b : Nat) (ha : a < 2 ^ 64) : cntSub (cntAdd a b) b = a := by
  simp only [cntSub, cntAdd]
  omega

/-- C48: a measured piece of code counts once, with the time from its start to its first end, however often and whenever `end` is called again (the destructor calls it). -/
theorem C48_auto_duration (d : Dur) (t0 t1 : Int) (ts : List Int) :
    (ts.foldl AutoDur.finish ((AutoDur.start d t0).finish t1)).dur = d.add (t1 - t0) := by
  have key : ∀ (ts : List Int) (a : AutoDur), a.started = false → (ts.foldl AutoDur.finish a).dur = a.dur := by
    intro ts
    induction ts with
    | nil => intro a _; rfl
    | cons t ts ih =>
      intro a ha
      rw [List.foldl_cons, ih _ rfl]
      simp [AutoDur.finish, ha]
  rw [key _ _ rfl]
  rfl

/-! The hypotheses of the theorems on durations hold of ordinary measurements. -/
example : some (Dur.of [7, 3, 9]).min = some 3 ∧ smallest [7, 3, 9] = some 3 ∧ some (Dur.of [7, 0, 9]).max = some 9 ∧ (Dur.of [7, 3]).merge (Dur.of [9, 2]) = Dur.of [7, 3, 9, 2] := by decide

/-- A measurement of 0 is taken for "no measurement yet": 0, then 5 gives a minimum of 5. -/
theorem C48_fails_min_zero : some (Dur.of [0, 5]).min = some 5 ∧ smallest [0, 5] = some 0 := by decide

/-- Adding the statistics of a socket without measurements makes the minimum 0. -/
theorem C48_fails_merge_empty : (Dur.of [4, 5]).min = 4 ∧ ((Dur.of [4, 5]).merge (Dur.of [])).min = 0 := by decide

/-- Taking statistics away leaves the minimum and maximum as they were: those of [4] are not restored from [4, 1, 9]. -/
theorem C48_fails_sub_min_max : let d := ((Dur.of [4]).merge (Dur.of [1, 9])).sub (Dur.of [1, 9]); d.sum = 4 ∧ d.num = 1 ∧ d.min = 1 ∧ d.max = 9 := by decide

/-- Two threads that pack at the same time may lose a measurement. -/
theorem C48_fails_pack_race : PackStat.exec ⟨0, 0, []⟩ [.load 4, .load 5, .store 0, .store 0] = some ⟨5, 1, []⟩ := by decide

/-- If no two threads pack at the same time, no measurement is lost. -/
theorem C48_pack_serial (xs : List Int) : ∀ (a n : Int), PackStat.exec ⟨a, n, []⟩ (xs.flatMap (fun x => [.load x, .store 0])) = some ⟨a + xs.sum, n + xs.length, []⟩ := by
  induction xs with
  | nil => intro a n; simp [PackStat.exec]
  | cons x xs ih =>
    intro a n
    simp only [List.flatMap_cons, List.cons_append, List.nil_append, PackStat.exec, PackStat.step, Option.bind_some, List.getElem?_cons_zero, List.eraseIdx_cons_zero, List.sum_cons, List.length_cons]
    rw [ih]
    congr 2 <;> omega

end StAsio
