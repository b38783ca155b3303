import Verif.Model.UdpPipe
import Verif.Lemmas.ModePipe2
import Verif.Props.C24_UdpSend
/-!
Lemmas for C96: from one UDP socket to another.
-/
set_option autoImplicit false
namespace StAsio

theorem upTx_append (i : Nat) (es fs : List UPEv) : upTx i (es ++ fs) = upTx i es ++ upTx i fs := by
  induction es with
  | nil => rfl
  | cons e es ih => cases e <;> simp only [List.cons_append, upTx, ih]; split <;> rfl

theorem upRx_append (es fs : List UPEv) : upRx (es ++ fs) = upRx es ++ upRx fs := by
  induction es with
  | nil => rfl
  | cons e es ih => cases e <;> simp [upRx, ih]

theorem upLeft_append (es fs : List UPEv) : upLeft (es ++ fs) = upLeft es ++ upLeft fs := by
  induction es with
  | nil => rfl
  | cons e es ih => cases e <;> simp [upLeft, ih]

theorem upArrived_append (es fs : List UPEv) : upArrived (es ++ fs) = upArrived es ++ upArrived fs := by
  induction es with
  | nil => rfl
  | cons e es ih => cases e <;> simp [upArrived, ih]

theorem upCopies_append (es fs : List UPEv) : upCopies (es ++ fs) = upCopies es ++ upCopies fs := by
  induction es with
  | nil => rfl
  | cons e es ih =>
    cases e with
    | arrived k d => cases k <;> simp [upCopies, ih]
    | _ => simp [upCopies, ih]

theorem upTx_tx (i j : Nat) (es : List UEv) : upTx i (es.map (.tx j)) = if j = i then es else [] := by
  induction es with
  | nil => simp [upTx]
  | cons e es ih => simp only [List.map_cons, upTx, ih]; split <;> rfl

theorem up_tx (j : Nat) (es : List UEv) : upRx (es.map (.tx j)) = [] ∧ upLeft (es.map (.tx j)) = [] ∧ upArrived (es.map (.tx j)) = [] ∧ upCopies (es.map (.tx j)) = [] := by
  induction es with
  | nil => exact ⟨rfl, rfl, rfl, rfl⟩
  | cons e es ih => simpa [upRx, upLeft, upArrived, upCopies] using ih

theorem up_left (i j : Nat) (ms : List UMsg) : upTx i (ms.map (.left j)) = [] ∧ upRx (ms.map (.left j)) = [] ∧ upLeft (ms.map (.left j)) = ms.map (fun m => (j, m)) ∧
    upArrived (ms.map (.left j)) = [] ∧ upCopies (ms.map (.left j)) = [] := by
  induction ms with
  | nil => exact ⟨rfl, rfl, rfl, rfl, rfl⟩
  | cons m ms ih => simpa [upTx, upRx, upLeft, upArrived, upCopies] using ih

theorem up_rx (i : Nat) (es : List MEv) : upTx i (es.map .rx) = [] ∧ upRx (es.map .rx) = es ∧ upLeft (es.map .rx) = [] ∧ upArrived (es.map .rx) = [] ∧ upCopies (es.map .rx) = [] := by
  induction es with
  | nil => exact ⟨rfl, rfl, rfl, rfl, rfl⟩
  | cons e es ih => simpa [upTx, upRx, upLeft, upArrived, upCopies] using ih

theorem leftBy_append (i : Nat) (xs ys : List (Nat × UMsg)) : leftBy i (xs ++ ys) = leftBy i xs ++ leftBy i ys := by simp [leftBy]

theorem leftBy_map (i j : Nat) (ms : List UMsg) : leftBy i (ms.map (fun m => (j, m))) = if j = i then ms else [] := by
  induction ms with
  | nil => simp [leftBy]
  | cons m ms ih =>
    rw [List.map_cons, show (j, m) :: ms.map (fun m => (j, m)) = [(j, m)] ++ ms.map (fun m => (j, m)) from rfl, leftBy_append, ih]
    by_cases h : j = i <;> simp [leftBy, h]

theorem dgShown_append (n : Nat) (a b : List Bytes) : dgShown n (a ++ b) = dgShown n a ++ dgShown n b := by simp [dgShown, nonEmpty_append]

theorem mine_append (me : Nat) : ∀ (n : Nat) (xs ys : List (Nat × UMsg)), mine me n (xs ++ ys) = mine me n xs ++ mine me (n + xs.length) ys := by
  intro n xs
  induction xs generalizing n with
  | nil => intro ys; simp [mine]
  | cons x xs ih =>
    intro ys
    simp only [List.cons_append, mine, ih, List.length_cons]
    rw [show n + 1 + xs.length = n + (xs.length + 1) by omega]
    split <;> simp

theorem mine_mem {me k : Nat} : ∀ {n : Nat} {xs : List (Nat × UMsg)}, k ∈ mine me n xs → n ≤ k ∧ ∃ x, xs[k - n]? = some x ∧ x.2.peer = me := by
  intro n xs
  induction xs generalizing n with
  | nil => intro h; simp [mine] at h
  | cons x xs ih =>
    intro h
    have hrec : k ∈ mine me (n + 1) xs → n ≤ k ∧ ∃ y, (x :: xs)[k - n]? = some y ∧ y.2.peer = me := by
      intro h
      obtain ⟨h1, y, h2, h3⟩ := ih h
      refine ⟨by omega, y, ?_, h3⟩
      rw [show k - n = (k - (n + 1)) + 1 by omega, List.getElem?_cons_succ]
      exact h2
    simp only [mine] at h
    split at h
    · next hp =>
      rcases List.mem_cons.1 h with rfl | h
      · exact ⟨Nat.le_refl _, x, by simp, hp⟩
      · exact hrec h
    · exact hrec h

/-! ### a datagram -/

/-- What the unpacker shows of a datagram, if the buffer has the right size. -/
theorem Udp.datagram_shown {u : Cfg} {raw : Bytes} (hr : raw.length = u.bufSize) (d : Bytes) : ∃ raw', Udp.datagram u raw d = some (raw', dgShown u.bufSize [d]) ∧ raw'.length = u.bufSize := by
  have hl : (d.take raw.length).length ≤ raw.length := by rw [List.length_take]; omega
  have hw : writeAt raw 0 (d.take raw.length) = some (d.take raw.length ++ raw.drop (d.take raw.length).length) := by
    simp [writeAt]
    omega
  refine ⟨d.take raw.length ++ raw.drop (d.take raw.length).length, ?_, ?_⟩
  · simp only [Udp.datagram, hw, Option.bind_eq_bind, Option.bind_some]
    rw [hr]
    by_cases h0 : (d.take u.bufSize).length = 0
    · have : d.take u.bufSize = [] := List.length_eq_zero_iff.mp h0
      simp [this, dgShown, nonEmpty]
    · rw [if_neg h0]
      have hne : d.take u.bufSize ≠ [] := fun h => h0 (by simp [h])
      have hnot : ¬ u.bufSize < (d.take u.bufSize).length := by rw [List.length_take]; omega
      have hrd : readAt (d.take u.bufSize ++ raw.drop (d.take u.bufSize).length) 0 (d.take u.bufSize).length = some (d.take u.bufSize) := by
        unfold readAt
        rw [if_pos (by rw [List.length_append]; omega)]
        simp
      simp only [Udp.parse, if_neg hnot, hrd, Option.bind_eq_bind, Option.bind_some]
      simp [dgShown, nonEmpty, hne]
  · rw [List.length_append, List.length_drop]; omega

/-! ### what always holds -/

/-- A sending socket just started. -/
def Ux.up : Ux := { Ux.init with ready := true, atReady := 1 }

structure UPipe.Good (me : Nat) (u : Cfg) (c : MCfg) (limit : Nat) (s : UPipe) (es : List UPEv) : Prop where
  tx : ∀ i, ∃ tas, Ux.Run false Ux.up tas (s.tx i) (upTx i es) ∧ (∀ a ∈ tas, a.stays = true) ∧ (s.tx i).ready = true ∧ (s.tx i).stopped = false ∧ (s.tx i).ccTimer = false
  wire : ∀ i, (s.tx i).wire = leftBy i (upLeft es)
  net : s.net = upLeft es
  rm : ∃ mas, Rm.Run c limit Rm.init mas s.rm (.asked :: upRx es) ∧ ∀ a ∈ mas, a.fine = true
  plain : ∀ e ∈ upRx es, MPlainEv e
  raw : s.raw.length = u.bufSize
  received : mReceived (upRx es) ++ dgShown u.bufSize s.kq = dgShown u.bufSize (upArrived es)
  copies : ∀ k d, UPEv.arrived (some k) d ∈ es → ∃ i m, (upLeft es)[k]? = some (i, m) ∧ m.peer = me ∧ m.data = d
  ready : s.rm.ready = true
  dlost : s.rm.dlost = false
  ec : s.rm.ec = false
  bad : s.bad = false

section
variable {me : Nat} {u : Cfg} {c : MCfg} {limit : Nat}

theorem Ux.up_run : Ux.Run false Ux.init [.linkUp] Ux.up [] :=
  Ux.run_one (a := .linkUp) (by decide)

theorem UPipe.init_good {raw : Bytes} (hr : raw.length = u.bufSize) : UPipe.Good me u c limit (UPipe.init raw) [] := by
  have hrm : Rm.step c limit Rm.init .linkUp = some ({ Rm.init with ready := true, rposted := 1 }, [.asked]) := by
    simp [Rm.step, Rm.init, Rm.still]
  exact ⟨fun i => ⟨[], Ux.Run.nil _, by simp, rfl, rfl, rfl⟩, fun i => rfl, rfl, ⟨_, Rm.run_one (a := .linkUp) trivial hrm, by simp [MAct.fine]⟩, by simp [upRx], hr, rfl, by simp, rfl, rfl, rfl, rfl⟩

theorem UPipe.Good.rm_inv {s : UPipe} {es : List UPEv} (h : s.Good me u c limit es) : s.rm.Inv c ∧ s.rm.buf.Exact rsz := by
  obtain ⟨mas, hr, _⟩ := h.rm
  exact ⟨(Rm.run_good hr).1, (Rm.run_good hr).2.1⟩

/-- A sender that is not connected and stays open: it stays ready, congestion control does not suspend it, datagrams only get more. -/
theorem Ux.stays_step {s s' : Ux} {a : UAct} {es : List UEv} (ha : a.stays = true) (hs : s.step false a = some (s', es)) (ht : s.ccTimer = false) :
    s'.ready = s.ready ∧ s'.stopped = s.stopped ∧ s'.ccTimer = false ∧ s.wire <+: s'.wire := by
  cases a with
  | linkUp | onClose | reset => simp [UAct.stays] at ha
  | complete i ok fatal =>
    simp only [Ux.step, Option.bind_eq_bind, Option.bind_eq_some_iff] at hs
    obtain ⟨w, _, hs⟩ := hs
    cases hs
    refine ⟨rfl, rfl, ht, ?_⟩
    simp only
    split
    · exact List.prefix_append _ _
    · exact List.prefix_refl _
  | handler i =>
    simp only [Ux.step, Option.bind_eq_bind, Option.bind_eq_some_iff] at hs
    obtain ⟨d, _, hs⟩ := hs
    simp only [Ux.handler] at hs
    (repeat' split at hs) <;> cases hs <;> exact ⟨rfl, rfl, ht, List.prefix_refl _⟩
  | strand x y =>
    simp only [Ux.step, Ux.strand, Bool.false_and] at hs
    (repeat' split at hs) <;> cases hs <;> first
      | exact ⟨rfl, rfl, ht, List.prefix_refl _⟩
      | (rename_i hc; simp at hc)
  | timerCC | timerLost =>
    simp only [Ux.step, ht] at hs
    cases hs
  | _ =>
    simp only [Ux.step] at hs
    (repeat' split at hs) <;> cases hs <;> exact ⟨rfl, rfl, ht, List.prefix_refl _⟩

theorem UPipe.Good.of_same {s s' : UPipe} {es fs : List UPEv} (h : s.Good me u c limit es) (h1 : s'.tx = s.tx) (h2 : s'.net = s.net) (f1 : ∀ i, upTx i fs = []) (f2 : upLeft fs = [])
    (h3 : ∃ mas, Rm.Run c limit Rm.init mas s'.rm (.asked :: upRx (es ++ fs)) ∧ ∀ a ∈ mas, a.fine = true) (h4 : ∀ e ∈ upRx fs, MPlainEv e) (h5 : s'.raw.length = u.bufSize)
    (h6 : mReceived (upRx (es ++ fs)) ++ dgShown u.bufSize s'.kq = dgShown u.bufSize (upArrived (es ++ fs)))
    (h7 : ∀ k d, UPEv.arrived (some k) d ∈ fs → ∃ i m, (upLeft es)[k]? = some (i, m) ∧ m.peer = me ∧ m.data = d)
    (h8 : s'.rm.ready = true) (h9 : s'.rm.dlost = false) (h10 : s'.rm.ec = false) (h11 : s'.bad = false) : s'.Good me u c limit (es ++ fs) := by
  have e2 : upLeft (es ++ fs) = upLeft es := by rw [upLeft_append, f2, List.append_nil]
  refine ⟨?_, ?_, ?_, h3, ?_, h5, h6, ?_, h8, h9, h10, h11⟩
  · intro i; rw [h1, upTx_append, f1, List.append_nil]; exact h.tx i
  · intro i; rw [h1, e2]; exact h.wire i
  · rw [h2, e2]; exact h.net
  · intro e he
    rw [upRx_append, List.mem_append] at he
    rcases he with he | he
    · exact h.plain e he
    · exact h4 e he
  · intro k d hk
    rw [e2]
    rcases List.mem_append.1 hk with hk | hk
    · exact h.copies k d hk
    · exact h7 k d hk

theorem UPipe.step_good {s s' : UPipe} {a : UPAct} {es fs : List UPEv} (h : s.Good me u c limit es) (hs : s.step me u c limit a = some (s', fs)) : s'.Good me u c limit (es ++ fs) := by
  obtain ⟨mas, hr, hf⟩ := h.rm
  cases a with
  | tx i a =>
    simp only [UPipe.step] at hs
    split at hs
    · next hst =>
      rw [Option.map_eq_some_iff] at hs
      obtain ⟨⟨t, tes⟩, h1, h2⟩ := hs
      simp only [Prod.mk.injEq] at h2
      obtain ⟨rfl, rfl⟩ := h2
      obtain ⟨tas, g1, g2, g3, g4, g5⟩ := h.tx i
      obtain ⟨k1, k2, k3, x, hx⟩ := Ux.stays_step hst h1 g5
      have hout : t.wire.drop (s.tx i).wire.length = x := by rw [← hx, List.drop_left]
      rw [hout]
      have a1 := up_tx i tes
      have a2 := fun j => up_left j i x
      have hrx : upRx (es ++ (tes.map (.tx i) ++ x.map (.left i))) = upRx es := by rw [upRx_append, upRx_append, a1.1, (a2 0).2.1]; simp
      have hle : upLeft (es ++ (tes.map (.tx i) ++ x.map (.left i))) = upLeft es ++ x.map (fun m => (i, m)) := by rw [upLeft_append, upLeft_append, a1.2.1, (a2 0).2.2.1]; simp
      have har : upArrived (es ++ (tes.map (.tx i) ++ x.map (.left i))) = upArrived es := by rw [upArrived_append, upArrived_append, a1.2.2.1, (a2 0).2.2.2.1]; simp
      have htx : ∀ j, upTx j (es ++ (tes.map (.tx i) ++ x.map (.left i))) = upTx j es ++ (if i = j then tes else []) := by
        intro j; rw [upTx_append, upTx_append, (a2 j).1, upTx_tx, List.append_nil]
      refine ⟨?_, ?_, ?_, ?_, ?_, h.raw, ?_, ?_, h.ready, h.dlost, h.ec, h.bad⟩
      · intro j
        rw [htx]
        by_cases hj : j = i
        · subst hj
          simp only [if_true]
          refine ⟨tas ++ [a], ?_, ?_, k1.trans g3, k2.trans g4, k3⟩
          · exact Ux.Run.snoc _ _ _ _ _ _ _ g1 h1
          · intro b hb
            rw [List.mem_append, List.mem_singleton] at hb
            rcases hb with hb | rfl
            · exact g2 b hb
            · exact hst
        · simp only [if_neg hj, if_neg (Ne.symm hj), List.append_nil]
          exact h.tx j
      · intro j
        rw [hle, leftBy_append, leftBy_map]
        by_cases hj : j = i
        · subst hj
          simp only [if_true]
          rw [← hx, h.wire]
        · simp only [if_neg hj, if_neg (Ne.symm hj), List.append_nil]
          exact h.wire j
      · rw [hle, ← h.net]
      · rw [hrx]; exact ⟨mas, hr, hf⟩
      · rw [hrx]; exact h.plain
      · rw [hrx, har]; exact h.received
      · intro k d hk
        rw [hle]
        have hk : UPEv.arrived (some k) d ∈ es := by
          simpa using hk
        obtain ⟨j, m, w1, w2, w3⟩ := h.copies k d hk
        exact ⟨j, m, by rw [List.getElem?_append_left (List.getElem?_eq_some_iff.mp w1).1]; exact w1, w2, w3⟩
    · cases hs
  | arrive k =>
    simp only [UPipe.step] at hs
    split at hs
    · cases hs
    · next x hx =>
      split at hs
      · next hp =>
        simp only [Option.some.injEq, Prod.mk.injEq] at hs
        obtain ⟨rfl, rfl⟩ := hs
        refine h.of_same rfl rfl (fun _ => rfl) rfl ?_ (by simp [upRx]) h.raw ?_ ?_ h.ready h.dlost h.ec h.bad
        · rw [upRx_append]; simpa [upRx] using ⟨mas, hr, hf⟩
        · rw [upRx_append, upArrived_append, dgShown_append, dgShown_append, ← h.received]; simp [upRx, upArrived]
        · intro k' d hk
          simp only [List.mem_singleton, UPEv.arrived.injEq, Option.some.injEq] at hk
          obtain ⟨rfl, rfl⟩ := hk
          exact ⟨x.1, x.2, by rw [← h.net]; exact hx, hp, rfl⟩
      · cases hs
  | stranger d =>
    simp only [UPipe.step, Option.some.injEq, Prod.mk.injEq] at hs
    obtain ⟨rfl, rfl⟩ := hs
    refine h.of_same rfl rfl (fun _ => rfl) rfl ?_ (by simp [upRx]) h.raw ?_ (by simp) h.ready h.dlost h.ec h.bad
    · rw [upRx_append]; simpa [upRx] using ⟨mas, hr, hf⟩
    · rw [upRx_append, upArrived_append, dgShown_append, dgShown_append, ← h.received]; simp [upRx, upArrived]
  | recv =>
    simp only [UPipe.step] at hs
    split at hs
    · next hk =>
      split at hs
      · cases hs
      · next d kq hkq =>
        obtain ⟨raw', hd, hl⟩ := Udp.datagram_shown h.raw d
        rw [hd] at hs
        simp only at hs
        rw [Rm.read_step _ hk.1 hk.2] at hs
        simp only [Option.map_some, Option.some.injEq, Prod.mk.injEq] at hs
        obtain ⟨rfl, rfl⟩ := hs
        refine h.of_same rfl rfl (fun _ => rfl) rfl ⟨mas ++ [.read (dgShown u.bufSize [d]) false], ?_, ?_⟩ ?_ hl ?_ (by simp) h.ready h.dlost rfl h.bad
        · rw [upRx_append, ← List.cons_append]
          exact Rm.run_trans hr (Rm.run_one (a := .read (dgShown u.bufSize [d]) false) trivial (Rm.read_step _ hk.1 hk.2))
        · intro b hb
          rw [List.mem_append, List.mem_singleton] at hb
          rcases hb with hb | rfl
          · exact hf b hb
          · rfl
        · simp [upRx, MPlainEv]
        · have := h.received
          rw [hkq, show d :: kq = [d] ++ kq from rfl, dgShown_append] at this
          rw [upRx_append, upArrived_append, mReceived_append, dgShown_append, ← this]
          simp [upRx, mReceived, upArrived, dgShown, nonEmpty]
    · cases hs
  | rx a =>
    simp only [UPipe.step] at hs
    split at hs
    · next hh =>
      rw [Option.map_eq_some_iff] at hs
      obtain ⟨⟨r, res⟩, h1, h2⟩ := hs
      cases h2
      obtain ⟨e1, e2, e3, e4, e5, _⟩ := Rm.ok_step hh h.rm_inv.1 h1
      refine h.of_same rfl rfl (fun i => (up_rx i res).1) (up_rx 0 res).2.2.1 ⟨mas ++ [a], ?_, ?_⟩ ?_ h.raw ?_ (by simp) (by rw [← h.ready]; exact e1) (e2 h.dlost) (by rw [← h.ec]; exact e3) h.bad
      · rw [upRx_append, (up_rx 0 res).2.1, ← List.cons_append]; exact Rm.run_trans hr (Rm.run_one (MAct.ok_honest hh) h1)
      · intro b hb
        rw [List.mem_append, List.mem_singleton] at hb
        rcases hb with hb | rfl
        · exact hf b hb
        · exact MAct.ok_fine hh
      · rw [(up_rx 0 res).2.1]; exact e5
      · rw [upRx_append, (up_rx 0 res).2.1, upArrived_append, (up_rx 0 res).2.2.2.1, mReceived_append, e4, List.append_nil, List.append_nil]; exact h.received
    · cases hs

theorem UPipe.run_good {s s' : UPipe} {as : List UPAct} {es fs : List UPEv} (h : s.Good me u c limit es) (hs : UPipe.Run me u c limit s as s' fs) : s'.Good me u c limit (es ++ fs) := by
  induction hs with
  | nil => simpa using h
  | snoc s1 s2 as a es1 fs1 hr1 hs1 ih =>
    rw [← List.append_assoc]
    exact UPipe.step_good ih hs1

theorem UPipe.run_trans {s s1 s2 : UPipe} {as bs : List UPAct} {es fs : List UPEv} (h1 : UPipe.Run me u c limit s as s1 es) (h2 : UPipe.Run me u c limit s1 bs s2 fs) :
    UPipe.Run me u c limit s (as ++ bs) s2 (es ++ fs) := by
  induction h2 with
  | nil => simpa using h1
  | snoc s2 s3 bs a fs fs' _ hs ih =>
    rw [← List.append_assoc, ← List.append_assoc]
    exact UPipe.Run.snoc _ _ _ _ _ _ _ ih hs

theorem UPipe.run_one {s s' : UPipe} {a : UPAct} {fs : List UPEv} (h : s.step me u c limit a = some (s', fs)) : UPipe.Run me u c limit s [a] s' fs := by
  simpa using UPipe.Run.snoc _ _ _ _ _ _ _ (UPipe.Run.nil s) h

theorem UPipe.exec_run {s s' : UPipe} {as : List UPAct} {es : List UPEv} (h : UPipe.exec me u c limit s as = some (s', es)) : UPipe.Run me u c limit s as s' es := by
  induction as generalizing s es with
  | nil => simp [UPipe.exec] at h; obtain ⟨rfl, rfl⟩ := h; exact UPipe.Run.nil _
  | cons a as ih =>
    simp only [UPipe.exec, Option.bind_eq_bind] at h
    rw [Option.bind_eq_some_iff] at h
    obtain ⟨⟨s1, e1⟩, h1, h⟩ := h
    rw [Option.bind_eq_some_iff] at h
    obtain ⟨⟨s2, e2⟩, h2, h⟩ := h
    simp at h
    obtain ⟨rfl, rfl⟩ := h
    exact UPipe.run_trans (UPipe.run_one h1) (ih h2)

end
end StAsio
