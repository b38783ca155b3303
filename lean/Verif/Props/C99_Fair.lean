import Verif.Props.C93_Fair
import Verif.Props.C99_Window
import Verif.Props.C70_Fair
import Verif.Lemmas.LinkCut2
set_option autoImplicit false
namespace StAsio

/-!
C99 for ever: on a link whose kernels and network hold a limited number of bytes no message starves.
-/

/-- None of the activities of a working link whose network holds `W` bytes is put off for ever, and on_msg_handle, called again and again, accepts again and again. -/
structure GPipe.WFairRun {K : Codec} (W : Nat) (cwf : Bool) (batch limit : Nat) (s : Nat → GPipe K) (a : Nat → Option PAct) : Prop where
  /-- a thread inside a send function goes on -/
  loadReady : Fair (GPipe.wstep W cwf batch limit) s a (PAct.isTx (· == .loadReady))
  loadFlag : Fair (GPipe.wstep W cwf batch limit) s a (PAct.isTx (· == .loadFlag))
  /-- the sender's strand goes on: a posted do_send_msg, do_send_msg itself -/
  runPosted : Fair (GPipe.wstep W cwf batch limit) s a (PAct.isTx (· == .runPosted))
  strand : Fair (GPipe.wstep W cwf batch limit) s a (PAct.isTx (· == .strand))
  /-- the sender's kernel takes bytes while there is room, and completes writes -/
  kernel : Fair (GPipe.wstep W cwf batch limit) s a (PAct.isTx TxAct.kernel)
  /-- send_handler is called -/
  handler : Fair (GPipe.wstep W cwf batch limit) s a (PAct.isTx TxAct.isHandler)
  /-- the network delivers -/
  net : Fair (GPipe.wstep W cwf batch limit) s a PAct.isNet
  /-- the receiving chain goes on: after messages were stored, before the next read, when it polls a full receive buffer -/
  loadDisp : Fair (GPipe.wstep W cwf batch limit) s a (PAct.isRx (· == .loadDisp))
  handled : Fair (GPipe.wstep W cwf batch limit) s a (PAct.isRx (· == .handled))
  checkTimer : Fair (GPipe.wstep W cwf batch limit) s a (PAct.isRx (· == .checkTimer))
  resume : Fair (GPipe.wstep W cwf batch limit) s a (PAct.isRx (· == .resume))
  /-- the receiver's dispatching goes on: a posted do_dispatch_msg, do_dispatch_msg itself, the retry timer -/
  run : Fair (GPipe.wstep W cwf batch limit) s a (PAct.isRx (· == .run))
  begin : Fair (GPipe.wstep W cwf batch limit) s a (PAct.isRx (· == .begin))
  dis : Fair (GPipe.wstep W cwf batch limit) s a (PAct.isRx (· == .dis))
  dtimer : Fair (GPipe.wstep W cwf batch limit) s a (PAct.isRx (· == .dtimer))
  /-- the receiving application accepts messages -/
  accepts : Fair (GPipe.wstep W cwf batch limit) s a (PAct.isRx (· == .ret true))

section
variable {K : Codec} {cwf : Bool} {W batch limit : Nat} {s : Nat → GPipe K} {a : Nat → Option PAct} {e : Nat → List PEv}

theorem GPipe.wexec_exec (he : Exec (GPipe.wstep W cwf batch limit) s a e) : Exec (GPipe.step cwf batch limit) s a e :=
  ⟨he.start, he.idle, fun n x hx => by
    obtain ⟨es, h1, h2⟩ := he.next n x hx
    exact ⟨es, GPipe.wstep_step h1, h2⟩⟩

/-- An activity that does not need room. -/
theorem GPipe.wfair_fair {c : PAct → Bool} (hc : ∀ x n off, c x = true → x.room W n off = true) (hf : Fair (GPipe.wstep W cwf batch limit) s a c) : Fair (GPipe.step cwf batch limit) s a c := by
  intro ho
  refine hf (fun n => ?_)
  obtain ⟨m, hm, x, hx, hs⟩ := ho n
  exact ⟨m, hm, x, hx, by simp only [GPipe.wstep, hc x _ _ hx, if_true]; exact hs⟩

theorem PAct.room_tx {c : TxAct → Bool} (hc : ∀ i k, c (.transfer i k) = false) : ∀ x n off, PAct.isTx c x = true → x.room W n off = true := by
  intro x n off hx
  cases x with
  | tx y =>
    cases y with
    | transfer i k => simp [PAct.isTx, hc] at hx
    | _ => rfl
  | _ => rfl

theorem PAct.room_rx {c : RAct → Bool} : ∀ x n off, PAct.isRx c x = true → x.room W n off = true := by
  intro x n off hx
  cases x <;> first | rfl | simp [PAct.isRx] at hx

/-- However few bytes the network holds, the sender's kernel is not kept from taking bytes for ever. -/
theorem GPipe.wfair_run {w : Item → Bytes} {Ok : Item → Prop} {Shown : List Item → Nat → List Bytes → Prop} {Inv : Bytes → Conn K.σ → Prop} {May : SendCall → Prop}
    (hK : K.Reads cwf w Ok Shown Inv) (hP : K.Packs w Ok May) (hW : 0 < W) (hlim : 0 < limit)
    (h0 : GPipe.init K = some (s 0)) (ha : ∀ n x, a n = some x → ∀ call fits, x = .send call fits → May call)
    (he : Exec (GPipe.wstep W cwf batch limit) s a e) (hf : GPipe.WFairRun W cwf batch limit s a) : GPipe.FairRun cwf batch limit s a := by
  have hnet : Fair (GPipe.step cwf batch limit) s a PAct.isNet := GPipe.wfair_fair (fun x n off hx => by cases x <;> first | rfl | simp [PAct.isNet] at hx) hf.net
  have f1 := GPipe.wfair_fair PAct.room_rx hf.loadDisp
  have f2 := GPipe.wfair_fair PAct.room_rx hf.handled
  have f3 := GPipe.wfair_fair PAct.room_rx hf.checkTimer
  have f4 := GPipe.wfair_fair PAct.room_rx hf.resume
  have f5 := GPipe.wfair_fair PAct.room_rx hf.run
  have f6 := GPipe.wfair_fair PAct.room_rx hf.begin
  have f7 := GPipe.wfair_fair PAct.room_rx hf.dis
  have f8 := GPipe.wfair_fair PAct.room_rx hf.dtimer
  have f9 := GPipe.wfair_fair PAct.room_rx hf.accepts
  refine ⟨GPipe.wfair_fair (PAct.room_tx (fun _ _ => rfl)) hf.loadReady, GPipe.wfair_fair (PAct.room_tx (fun _ _ => rfl)) hf.loadFlag, GPipe.wfair_fair (PAct.room_tx (fun _ _ => rfl)) hf.runPosted,
    GPipe.wfair_fair (PAct.room_tx (fun _ _ => rfl)) hf.strand, ?_, GPipe.wfair_fair (PAct.room_tx (fun _ _ => rfl)) hf.handler, hnet, f1, f2, f3, f4, f5, f6, f7, f8, f9⟩
  have hex := GPipe.wexec_exec he
  obtain ⟨hg, hwire, hread, _⟩ := GPipe.reads_on hK hP hlim h0 ha hex ⟨hnet, f1, f2, f3, f4, f5, f6, f7, f8, f9⟩
  intro ho
  apply Classical.byContradiction
  intro hc
  -- from `N` on the kernel does nothing
  have hN : ∃ N, ∀ m, N ≤ m → ∀ x, a m = some x → PAct.isTx TxAct.kernel x = false := by
    apply Classical.byContradiction
    intro h
    refine hc (fun n => ?_)
    apply Classical.byContradiction
    intro h'
    refine h ⟨n, fun m hm x hx => ?_⟩
    cases hk : PAct.isTx TxAct.kernel x with
    | false => rfl
    | true => exact absurd ⟨m, hm, x, hk, hx⟩ h'
  obtain ⟨N, hN⟩ := hN
  have hstill : ∀ k, (s (N + k)).tx.wire = (s N).tx.wire := by
    intro k
    induction k with
    | zero => rfl
    | succ k ih =>
      rw [← ih, ← Nat.add_assoc]
      cases hx : a (N + k) with
      | none => rw [(hex.idle _ hx).1]
      | some x =>
        obtain ⟨es, hs, _⟩ := hex.next _ x hx
        refine (GPipe.step_stream (hg _).tx_inv ?_ hs).1
        have h1 := hN _ (by omega) x hx
        cases x with
        | tx y => cases y <;> first | rfl | simp [PAct.isTx, TxAct.kernel] at h1
        | _ => rfl
  -- the receiver reads everything
  obtain ⟨k, _, hk⟩ := reaches (f := fun k => (s (N + k)).off) (t := (s N).tx.wire.length) (by
    intro k hlt
    obtain ⟨m, h1, h2⟩ := hread (N + k) (by rw [hstill]; exact hlt)
    exact ⟨m - N, by omega, by rw [show N + (m - N) = m by omega]; exact h2⟩) 0
  have hk : (s N).tx.wire.length ≤ (s (N + k)).off := hk
  have hmono : ∀ j, (s (N + k)).off ≤ (s (N + k + j)).off := by
    intro j
    induction j with
    | zero => exact Nat.le_refl _
    | succ j ih =>
      refine Nat.le_trans ih ?_
      rw [← Nat.add_assoc]
      cases hx : a (N + k + j) with
      | none => rw [(hex.idle _ hx).1]; exact Nat.le_refl _
      | some x =>
        obtain ⟨es, hs, _⟩ := hex.next _ x hx
        have := GPipe.step_off (hg _).bad hs
        split at this <;> omega
  -- so there is room
  obtain ⟨m, hm, x, hx, hax⟩ := hf.kernel (fun n => by
    obtain ⟨m, hm, x, hx, hs⟩ := ho (N + k + n)
    have hroom : (s m).tx.wire.length - (s m).off + 1 ≤ W := by
      have h1 := hstill (m - N)
      have h2 := hmono (m - (N + k))
      rw [show N + (m - N) = m by omega] at h1
      rw [show N + k + (m - (N + k)) = m by omega] at h2
      rw [h1]
      omega
    cases x with
    | tx y =>
      cases y with
      | transfer i j =>
        obtain ⟨r, hr⟩ := Option.isSome_iff_exists.mp hs
        simp only [GPipe.step, TxAct.healthy, if_true] at hr
        obtain ⟨r', hr', _⟩ := Option.map_eq_some_iff.mp hr
        obtain ⟨t, fs, h1⟩ := Tx.transfer_one hr'
        refine ⟨m, by omega, .tx (.transfer i 1), rfl, ?_⟩
        simp only [GPipe.wstep, PAct.room, hroom, decide_true, if_true, GPipe.step, TxAct.healthy, h1, Option.map_some, Option.isSome_some]
      | complete i ok => exact ⟨m, by omega, .tx (.complete i ok), hx, hs⟩
      | _ => simp [PAct.isTx, TxAct.kernel] at hx
    | _ => simp [PAct.isTx] at hx) N
  rw [hN m hm x hax] at hx
  cases hx

end

/-- C99, one direction, for ever: a link whose kernels and network hold `W` bytes, however few, any packer/unpacker pair, threads of the sender that go on sending for ever, a receiver that may refuse messages for a while and whose
receive buffer may be as small as it likes. If none of the activities is put off for ever and on_msg_handle accepts again and again, then everything that was sent until any moment has been handled at some later moment. -/
theorem C99_no_starvation (P : Proto) (hv : P.Valid) (nd : Bool) (junk : Nat → Bytes) (hj : ∀ n, (junk n).length = n) (raw : Bytes) (hraw : raw.length = P.rawLen) (cwf : Bool)
    (W batch limit : Nat) (hW : 0 < W) (hlim : 0 < limit) (s : Nat → GPipe (P.codec nd junk raw)) (a : Nat → Option PAct) (e : Nat → List PEv) (h0 : GPipe.init (P.codec nd junk raw) = some (s 0))
    (ha : ∀ n x, a n = some x → x.Allowed P) (he : Exec (GPipe.wstep W cwf batch limit) s a e) (hf : GPipe.WFairRun W cwf batch limit s a) (n : Nat) :
    ∃ m, P.Contains (sentItems (e n)) (handledItems (e m)) := by
  obtain ⟨Inv, hK⟩ := P.reads hv nd cwf junk hj raw hraw
  exact C93_no_starvation P hv nd junk hj raw hraw cwf batch limit hlim s a e h0 ha (GPipe.wexec_exec he)
    (GPipe.wfair_run hK (P.packs hv nd junk raw) hW hlim h0 (fun n x hx call fits hc => by have := ha n x hx; subst hc; exact this) he hf) n

theorem GPipe.wrun_play {K : Codec} {cwf : Bool} {W batch limit : Nat} {s0 s : GPipe K} {as : List PAct} {es : List PEv} (h : GPipe.WRun W cwf batch limit s0 as s es) :
    play (GPipe.wstep W cwf batch limit) s0 as as.length = (s, es) ∧ ∀ i : Fin as.length, (GPipe.wstep W cwf batch limit (play (GPipe.wstep W cwf batch limit) s0 as i).1 as[i]).isSome = true := by
  induction h with
  | nil => exact ⟨rfl, fun i => absurd i.2 (by simp)⟩
  | snoc s1 s2 as x es fs hr hs ih =>
    obtain ⟨h1, h2⟩ := ih
    have h3 := play_le (GPipe.wstep W cwf batch limit) s0 as [x] as.length (Nat.le_refl _)
    refine ⟨?_, fun i => ?_⟩
    · rw [List.length_append, List.length_singleton]
      simp only [play, h3, h1, List.getElem?_append_right (Nat.le_refl _), Nat.sub_self, List.getElem?_cons_zero, hs]
    · obtain ⟨i, hi⟩ := i
      simp only [Fin.getElem_fin]
      by_cases hl : i < as.length
      · rw [play_le _ _ _ _ _ (by omega), List.getElem_append_left hl]
        exact h2 ⟨i, hl⟩
      · simp only [List.length_append, List.length_singleton] at hi
        have : i = as.length := by omega
        subst this
        rw [h3, h1, List.getElem_append_right (Nat.le_refl _)]
        simp only [Nat.sub_self, List.getElem_cons_zero, hs, Option.isSome_some]

/-- Non-vacuity of C99_no_starvation: whatever happened so far (the run of C99_demo_pipe, for example), there is a way to go on for ever that is fair. -/
theorem C99_fair_exists (P : Proto) (hv : P.Valid) (nd : Bool) (junk : Nat → Bytes) (hj : ∀ n, (junk n).length = n) (raw : Bytes) (hraw : raw.length = P.rawLen) (cwf : Bool)
    (W batch limit : Nat) (hW : 0 < W) (hlim : 0 < limit) (s0 s1 : GPipe (P.codec nd junk raw)) (as : List PAct) (es : List PEv) (h0 : GPipe.init (P.codec nd junk raw) = some s0)
    (ha : ∀ a ∈ as, a.Allowed P) (h : GPipe.WRun W cwf batch limit s0 as s1 es) :
    ∃ (s : Nat → GPipe (P.codec nd junk raw)) (a : Nat → Option PAct) (e : Nat → List PEv), s 0 = s0 ∧ (∀ i, i < as.length → a i = as[i]?) ∧ (∀ n x, a n = some x → x.Allowed P) ∧
      Exec (GPipe.wstep W cwf batch limit) s a e ∧ e as.length = es ∧ GPipe.WFairRun W cwf batch limit s a := by
  obtain ⟨bs, s', fs, hb, hi, _, _, hq⟩ := C99_delivers P hv nd junk hj raw hraw cwf W batch limit hW hlim s0 s1 as es h0 ha h
  obtain ⟨p1, p2⟩ := GPipe.wrun_play (GPipe.wrun_trans h hb)
  have hno : ∀ (cl : PAct → Bool), (∀ x, cl x = true → x.Internal ∨ ∀ t : GPipe (P.codec nd junk raw), t.wstep W cwf batch limit x = none) →
      Fair (GPipe.wstep W cwf batch limit) (fun n => (play (GPipe.wstep W cwf batch limit) s0 (as ++ bs) n).1) (fun n => (as ++ bs)[n]?) cl := by
    intro cl hcl
    refine play_fair s0 (as ++ bs) cl (fun x hx => ?_)
    rcases hcl x hx with h1 | h1
    · rw [p1]; exact hq x h1
    · exact h1 _
  have htx : ∀ cl : TxAct → Bool, ∀ x, PAct.isTx cl x = true → x.Internal ∨ ∀ t : GPipe (P.codec nd junk raw), t.wstep W cwf batch limit x = none := by
    intro cl x hx
    cases x with
    | tx y => exact .inl trivial
    | _ => simp [PAct.isTx] at hx
  have hrx : ∀ cl : RAct → Bool, cl (.ret false) = false → ∀ x, PAct.isRx cl x = true → x.Internal ∨ ∀ t : GPipe (P.codec nd junk raw), t.wstep W cwf batch limit x = none := by
    intro cl hcl x hx
    cases x with
    | rx y =>
      cases y with
      | ret ok => cases ok with
        | true => exact .inl rfl
        | false => simp [PAct.isRx, hcl] at hx
      | _ => exact .inl trivial
    | _ => simp [PAct.isRx] at hx
  refine ⟨_, _, _, rfl, fun i hil => List.getElem?_append_left hil, ?_, play_exec s0 (as ++ bs) p2, ?_, ?_⟩
  · intro n x hx
    rcases List.mem_append.mp (List.mem_of_getElem? hx) with h1 | h1
    · exact ha x h1
    · have := hi x h1
      cases x <;> first | trivial | simp [PAct.Internal] at this
  · rw [play_le _ _ _ _ _ (Nat.le_refl _), (GPipe.wrun_play h).1]
  · exact ⟨hno _ (htx _), hno _ (htx _), hno _ (htx _), hno _ (htx _), hno _ (htx _), hno _ (htx _),
      hno _ (fun x hx => by cases x <;> first | exact .inl trivial | simp [PAct.isNet] at hx),
      hno _ (hrx _ rfl), hno _ (hrx _ rfl), hno _ (hrx _ rfl), hno _ (hrx _ rfl), hno _ (hrx _ rfl), hno _ (hrx _ rfl), hno _ (hrx _ rfl), hno _ (hrx _ rfl), hno _ (hrx _ rfl)⟩

/-! ### one end answers -/

section
variable {c : Cfg} {nd cwf : Bool} {W batch limit sendLimit : Nat}

theorem Pipe.step_still_wire {t t' : Pipe} {x : PAct} {es : List PEv} (hi : t.tx.Inv) (hx : PAct.isTx TxAct.kernel x = false) (hs : t.step c nd cwf batch limit x = some (t', es)) : t'.tx.wire = t.tx.wire := by
  cases x with
  | send call fits =>
    simp only [Pipe.step] at hs
    split at hs
    · cases hs; rfl
    · cases hs; rfl
    · simp only [Option.some.injEq, Prod.mk.injEq] at hs
      obtain ⟨rfl, rfl⟩ := hs
      dsimp only
      split
      · exact (Tx.send_step _ _ _).2.1
      · exact (Tx.sendList_step hi _).2.1
  | tx y =>
    simp only [Pipe.step] at hs
    split at hs
    · next hh =>
      obtain ⟨r, h1, h2⟩ := Option.map_eq_some_iff.mp hs
      cases h2
      refine Tx.step_still_wire hh (fun i k hik => ?_) h1
      subst hik
      simp [PAct.isTx, TxAct.kernel] at hx
    · cases hs
  | net k => have := Pipe.step_tx hs; simp only [Pipe.txAct] at this; rw [this]
  | rx y => have := Pipe.step_tx hs; simp only [Pipe.txAct] at this; rw [this]

/-- What is possible in one direction when the network holds `W` bytes. -/
def Pipe.wstep (W : Nat) (c : Cfg) (nd cwf : Bool) (batch limit : Nat) (t : Pipe) (x : PAct) : Option (Pipe × List PEv) :=
  if x.room W t.tx.wire.length t.off then t.step c nd cwf batch limit x else none

/-- However few bytes the network holds, the sender's kernel is not kept from taking bytes for ever, if the receiver reads. -/
theorem Pipe.wfair_kernel (hv : c.Valid) (hh : c.bufSize < 256 ^ c.headLen) {raw : Bytes} (hraw : raw.length = c.bufSize) {stripped : Bool} {s : Nat → Pipe} {a : Nat → Option PAct} {e : Nat → List PEv}
    (h0 : Pipe.init c raw stripped = some (s 0)) (ha : ∀ n x, a n = some x → x.Honest) (hex : Exec (Pipe.step c nd cwf batch limit) s a e) (hW : 0 < W) (hlim : 0 < limit)
    (hf : Fair (Pipe.wstep W c nd cwf batch limit) s a (PAct.isTx TxAct.kernel)) (hrx : Pipe.FairRx c nd cwf batch limit s a) :
    Fair (Pipe.step c nd cwf batch limit) s a (PAct.isTx TxAct.kernel) := by
  obtain ⟨hg, hwire, hread, _⟩ := Pipe.reads_on hv hh hraw h0 ha hex hlim hrx
  intro ho
  apply Classical.byContradiction
  intro hc
  -- from `N` on the kernel does nothing
  have hN : ∃ N, ∀ m, N ≤ m → ∀ x, a m = some x → PAct.isTx TxAct.kernel x = false := by
    apply Classical.byContradiction
    intro h
    refine hc (fun n => ?_)
    apply Classical.byContradiction
    intro h'
    refine h ⟨n, fun m hm x hx => ?_⟩
    cases hk : PAct.isTx TxAct.kernel x with
    | false => rfl
    | true => exact absurd ⟨m, hm, x, hk, hx⟩ h'
  obtain ⟨N, hN⟩ := hN
  have hstill : ∀ k, (s (N + k)).tx.wire = (s N).tx.wire := by
    intro k
    induction k with
    | zero => rfl
    | succ k ih =>
      rw [← ih, ← Nat.add_assoc]
      cases hx : a (N + k) with
      | none => rw [(hex.idle _ hx).1]
      | some x =>
        obtain ⟨es, hs, _⟩ := hex.next _ x hx
        exact Pipe.step_still_wire (hg _).tx_inv (hN _ (by omega) x hx) hs
  -- the receiver reads everything
  obtain ⟨k, _, hk⟩ := reaches (f := fun k => (s (N + k)).off) (t := (s N).tx.wire.length) (by
    intro k hlt
    obtain ⟨m, h1, h2⟩ := hread (N + k) (by rw [hstill]; exact hlt)
    exact ⟨m - N, by omega, by rw [show N + (m - N) = m by omega]; exact h2⟩) 0
  have hk : (s N).tx.wire.length ≤ (s (N + k)).off := hk
  have hmono : ∀ j, (s (N + k)).off ≤ (s (N + k + j)).off := by
    intro j
    induction j with
    | zero => exact Nat.le_refl _
    | succ j ih =>
      refine Nat.le_trans ih ?_
      rw [← Nat.add_assoc]
      cases hx : a (N + k + j) with
      | none => rw [(hex.idle _ hx).1]; exact Nat.le_refl _
      | some x =>
        obtain ⟨es, hs, _⟩ := hex.next _ x hx
        have := Pipe.step_off (hg _).bad hs
        split at this <;> omega
  -- so there is room
  obtain ⟨m, hm, x, hx, hax⟩ := hf (fun n => by
    obtain ⟨m, hm, x, hx, hs⟩ := ho (N + k + n)
    have hroom : (s m).tx.wire.length - (s m).off + 1 ≤ W := by
      have h1 := hstill (m - N)
      have h2 := hmono (m - (N + k))
      rw [show N + (m - N) = m by omega] at h1
      rw [show N + k + (m - (N + k)) = m by omega] at h2
      rw [h1]
      omega
    cases x with
    | tx y =>
      cases y with
      | transfer i j =>
        obtain ⟨r, hr⟩ := Option.isSome_iff_exists.mp hs
        simp only [Pipe.step, TxAct.healthy, if_true] at hr
        obtain ⟨r', hr', _⟩ := Option.map_eq_some_iff.mp hr
        obtain ⟨t, fs, h1⟩ := Tx.transfer_one hr'
        refine ⟨m, by omega, .tx (.transfer i 1), rfl, ?_⟩
        simp only [Pipe.wstep, PAct.room, hroom, decide_true, if_true, Pipe.step, TxAct.healthy, h1, Option.map_some, Option.isSome_some]
      | complete i ok => exact ⟨m, by omega, .tx (.complete i ok), hx, hs⟩
      | _ => simp [PAct.isTx, TxAct.kernel] at hx
    | _ => simp [PAct.isTx] at hx) N
  rw [hN m hm x hax] at hx
  cases hx

theorem Echo.wexec_exec {s : Nat → Echo} {a : Nat → Option EAct} {e : Nat → List EEv} (he : Exec (Echo.wstep W c nd cwf batch limit sendLimit) s a e) : Exec (Echo.step c nd cwf batch limit sendLimit) s a e :=
  ⟨he.start, he.idle, fun n x hx => by
    obtain ⟨es, h1, h2⟩ := he.next n x hx
    exact ⟨es, Echo.wstep_step h1, h2⟩⟩

theorem Echo.wcan_up (t : Echo) {y : PAct} (h1 : y.isRet = false) (h2 : y.room W t.up.tx.wire.length t.up.off = true) (hs : (t.up.step c nd cwf batch limit y).isSome = true) :
    (t.wstep W c nd cwf batch limit sendLimit (.up y)).isSome = true := by
  simp only [Echo.wstep, EAct.room, h2, if_true]
  exact Echo.can_up t h1 hs

theorem Echo.wcan_down (t : Echo) {y : PAct} (h1 : y.isOtherSend = false) (h2 : y.room W t.down.tx.wire.length t.down.off = true) (hs : (t.down.step c nd cwf batch limit y).isSome = true) :
    (t.wstep W c nd cwf batch limit sendLimit (.down y)).isSome = true := by
  simp only [Echo.wstep, EAct.room, h2, if_true]
  exact Echo.can_down t h1 hs

end

/-- C99, one end answers, for ever: as `C70_no_starvation`, on a link whose kernels and network hold `W` bytes in each direction, however few, so that the server stops taking messages whenever its answers do not get through. If none of the
activities is put off for ever and the client accepts answers again and again, then every non-empty message is answered at some time, in order and with the same content. -/
theorem C99_no_starvation_echo (c : Cfg) (hv : c.Valid) (hh : c.bufSize < 256 ^ c.headLen) (raw1 raw2 : Bytes) (hraw1 : raw1.length = c.bufSize) (hraw2 : raw2.length = c.bufSize) (st2 nd cwf : Bool)
    (W batch limit sendLimit : Nat) (hW : 0 < W) (hlim : 0 < limit) (hsl : 0 < sendLimit) (s : Nat → Echo) (a : Nat → Option EAct) (e : Nat → List EEv) (h0 : Echo.init c raw1 raw2 true st2 = some (s 0))
    (ha : ∀ n x, a n = some x → x.Honest) (hb : ∃ N, ∀ n, N ≤ n → ∀ fits, a n ≠ some (.down (.send .heartbeat fits))) (he : Exec (Echo.wstep W c nd cwf batch limit sendLimit) s a e)
    (hf : Echo.FairRun (Echo.wstep W c nd cwf batch limit sendLimit) s a) (n : Nat) : ∃ m, expected c.headLen st2 (asked (e n)) <+: answered (e m) := by
  have hex := Echo.wexec_exec he
  have hinit : Pipe.init c raw1 true = some (s 0).up ∧ Pipe.init c raw2 st2 = some (s 0).down := Echo.init_parts h0
  have hk : ∀ y, PAct.isTx TxAct.kernel y = true → y.isRet = false ∧ y.isOtherSend = false := by
    intro y hy
    cases y <;> first | exact ⟨rfl, rfl⟩ | simp [PAct.isTx] at hy
  have hsome : ∀ (t : Pipe) y, (t.wstep W c nd cwf batch limit y).isSome = true → y.room W t.tx.wire.length t.off = true ∧ (t.step c nd cwf batch limit y).isSome = true := by
    intro t y h
    simp only [Pipe.wstep] at h
    split at h
    · next h1 => exact ⟨h1, h⟩
    · cases h
  have hd : ∀ cl ∈ linkActs, _ := fun cl hcl => Echo.fair_down (c := c) (nd := nd) (sendLimit := sendLimit) (step' := Pipe.step c nd cwf batch limit)
    (fun t y hy hs => Echo.wcan_down t (linkActs_plain hcl hy).2.1 ((linkActs_plain hcl hy).2.2.2 _ _ _) hs) (hf.down cl hcl)
  have hda := Echo.fair_down (c := c) (nd := nd) (sendLimit := sendLimit) (step' := Pipe.step c nd cwf batch limit) (fun t y hy hs => Echo.wcan_down t (by
      cases y <;> first | rfl | simp [PAct.isRx] at hy) (by cases y <;> first | rfl | simp [PAct.isRx] at hy) hs) hf.accepts
  have hdk := Pipe.wfair_kernel hv hh hraw2 hinit.2 (Echo.honest_down hex) (Echo.exec_down hex) hW hlim
    (Echo.fair_down (fun t y hy hs => Echo.wcan_down t (hk y hy).2 (hsome _ _ hs).1 (hsome _ _ hs).2) hf.downKernel)
    ⟨hd _ (by simp [linkActs]), hd _ (by simp [linkActs]), hd _ (by simp [linkActs]), hd _ (by simp [linkActs]), hd _ (by simp [linkActs]), hd _ (by simp [linkActs]), hd _ (by simp [linkActs]),
      hd _ (by simp [linkActs]), hd _ (by simp [linkActs]), hda⟩
  refine Echo.answers hv hh hraw1 hraw2 hlim hsl h0 ha hb hex
    (fun cl hcl => Echo.fair_up (fun t y hy hs => Echo.wcan_up t (linkActs_plain hcl hy).1 ((linkActs_plain hcl hy).2.2.2 _ _ _) hs) (hf.up cl hcl))
    (fun hrx => Pipe.wfair_kernel hv hh hraw1 hinit.1 (Echo.honest_up ha) (Echo.exec_up hex) hW hlim
      (Echo.fair_up (fun t y hy hs => Echo.wcan_up t (hk y hy).1 (hsome _ _ hs).1 (hsome _ _ hs).2) hf.upKernel) hrx) ?_ ?_ n
  · intro ho
    refine hf.echo (fun k => ?_)
    obtain ⟨m, hm, x, hx, hs⟩ := ho k
    cases eq_of_beq hx
    exact ⟨m, hm, .echo, rfl, by simpa only [Echo.wstep, EAct.room, if_true] using hs⟩
  · exact ⟨hd _ (by simp [linkActs]), hd _ (by simp [linkActs]), hd _ (by simp [linkActs]), hd _ (by simp [linkActs]), hdk,
      hd _ (by simp [linkActs]), hd _ (by simp [linkActs]), hd _ (by simp [linkActs]), hd _ (by simp [linkActs]), hd _ (by simp [linkActs]), hd _ (by simp [linkActs]), hd _ (by simp [linkActs]), hd _ (by simp [linkActs]),
      hd _ (by simp [linkActs]), hd _ (by simp [linkActs]), hda⟩

theorem Echo.wrun_play {c : Cfg} {nd cwf : Bool} {W batch limit sendLimit : Nat} {s0 s : Echo} {as : List EAct} {es : List EEv} (h : Echo.WRun W c nd cwf batch limit sendLimit s0 as s es) :
    play (Echo.wstep W c nd cwf batch limit sendLimit) s0 as as.length = (s, es) ∧ ∀ i : Fin as.length, (Echo.wstep W c nd cwf batch limit sendLimit (play (Echo.wstep W c nd cwf batch limit sendLimit) s0 as i).1 as[i]).isSome = true := by
  induction h with
  | nil => exact ⟨rfl, fun i => absurd i.2 (by simp)⟩
  | snoc s1 s2 as x es fs hr hs ih =>
    obtain ⟨h1, h2⟩ := ih
    have h3 := play_le (Echo.wstep W c nd cwf batch limit sendLimit) s0 as [x] as.length (Nat.le_refl _)
    refine ⟨?_, fun i => ?_⟩
    · rw [List.length_append, List.length_singleton]
      simp only [play, h3, h1, List.getElem?_append_right (Nat.le_refl _), Nat.sub_self, List.getElem?_cons_zero, hs]
    · obtain ⟨i, hi⟩ := i
      simp only [Fin.getElem_fin]
      by_cases hl : i < as.length
      · rw [play_le _ _ _ _ _ (by omega), List.getElem_append_left hl]
        exact h2 ⟨i, hl⟩
      · simp only [List.length_append, List.length_singleton] at hi
        have : i = as.length := by omega
        subst this
        rw [h3, h1, List.getElem_append_right (Nat.le_refl _)]
        simp only [Nat.sub_self, List.getElem_cons_zero, hs, Option.isSome_some]

theorem Echo.wsettles {c : Cfg} (hv : c.Valid) (hr : c.bufSize < 256 ^ c.headLen) {nd cwf : Bool} {st2 : Bool} {batch limit sendLimit W : Nat} (hW : 0 < W) (hlim : 0 < limit) (hsl : 0 < sendLimit) :
    ∀ (n : Nat) (s : Echo) (es : List EEv), s.Good c true st2 batch limit es → s.work c ≤ n →
      ∃ bs s' fs, Echo.WRun W c nd cwf batch limit sendLimit s bs s' fs ∧ (∀ b ∈ bs, b.Internal) ∧ s'.Good c true st2 batch limit (es ++ fs) ∧ s'.AtRest limit := by
  intro n
  induction n with
  | zero =>
    intro s es hg hw
    rcases Classical.em (s.AtRest limit) with hq | hq
    · exact ⟨[], s, [], .nil s, by simp, by rw [List.append_nil]; exact hg, hq⟩
    · obtain ⟨a, s', fs, a1, a2, a3, a4⟩ := Echo.wprogress hv hr nd cwf hW hlim hsl hg hq
      omega
  | succ n ih =>
    intro s es hg hw
    rcases Classical.em (s.AtRest limit) with hq | hq
    · exact ⟨[], s, [], .nil s, by simp, by rw [List.append_nil]; exact hg, hq⟩
    · obtain ⟨a, s', fs, a1, a2, a3, a4⟩ := Echo.wprogress hv hr nd cwf hW hlim hsl hg hq
      obtain ⟨bs, s2, gs, b1, b2, b3, b4⟩ := ih s' _ (Echo.step_good hv hr hg a2 (Echo.wstep_step a3)) (by omega)
      refine ⟨[a] ++ bs, s2, fs ++ gs, Echo.wrun_trans (Echo.wrun_one a3) b1, ?_, by rw [← List.append_assoc]; exact b3, b4⟩
      intro b hb
      simp at hb
      rcases hb with rfl | hb
      · exact a1
      · exact b2 b hb

/-- Non-vacuity of C99_no_starvation_echo: whatever happened so far (the run of C99_demo_echo, for example), there is a way to go on for ever that is fair. -/
theorem C99_fair_exists_echo (c : Cfg) (hv : c.Valid) (hh : c.bufSize < 256 ^ c.headLen) (raw1 raw2 : Bytes) (hraw1 : raw1.length = c.bufSize) (hraw2 : raw2.length = c.bufSize) (st2 nd cwf : Bool)
    (W batch limit sendLimit : Nat) (hW : 0 < W) (hlim : 0 < limit) (hsl : 0 < sendLimit) (s0 s1 : Echo) (as : List EAct) (es : List EEv) (h0 : Echo.init c raw1 raw2 true st2 = some s0)
    (ha : ∀ a ∈ as, a.Honest) (h : Echo.WRun W c nd cwf batch limit sendLimit s0 as s1 es) :
    ∃ (s : Nat → Echo) (a : Nat → Option EAct) (e : Nat → List EEv), s 0 = s0 ∧ (∀ i, i < as.length → a i = as[i]?) ∧ (∀ n x, a n = some x → x.Honest) ∧
      (∃ N, ∀ n, N ≤ n → ∀ fits, a n ≠ some (.down (.send .heartbeat fits))) ∧ Exec (Echo.wstep W c nd cwf batch limit sendLimit) s a e ∧ e as.length = es ∧ Echo.FairRun (Echo.wstep W c nd cwf batch limit sendLimit) s a := by
  obtain ⟨bs, s', fs, hb, hi, hg, hq⟩ := Echo.wsettles hv hh (nd := nd) (cwf := cwf) hW hlim hsl (s1.work c) s1 es (Echo.good_of_run hv hh hraw1 hraw2 h0 ha (Echo.wrun_run h)) (Nat.le_refl _)
  obtain ⟨p1, p2⟩ := Echo.wrun_play (Echo.wrun_trans h hb)
  have hrest : ∀ x : EAct, x.Internal → s'.wstep W c nd cwf batch limit sendLimit x = none := by
    intro x hx
    simp only [Echo.wstep]
    split
    · exact hg.at_rest hlim hq x hx
    · rfl
  have hno : ∀ (cl : EAct → Bool), (∀ x, cl x = true → x.Internal) →
      Fair (Echo.wstep W c nd cwf batch limit sendLimit) (fun n => (play (Echo.wstep W c nd cwf batch limit sendLimit) s0 (as ++ bs) n).1) (fun n => (as ++ bs)[n]?) cl := by
    intro cl hcl
    refine play_fair s0 (as ++ bs) cl (fun x hx => ?_)
    rw [p1]
    exact hrest x (hcl x hx)
  refine ⟨_, _, _, rfl, fun i hil => List.getElem?_append_left hil, ?_, ⟨(as ++ bs).length, fun n hn fits => by rw [List.getElem?_eq_none hn]; simp⟩, play_exec s0 (as ++ bs) p2, ?_, ?_⟩
  · intro n x hx
    rcases List.mem_append.mp (List.mem_of_getElem? hx) with h1 | h1
    · exact ha x h1
    · have := hi x h1
      cases x with
      | up y => cases y <;> first | trivial | simp [EAct.Internal, PAct.Internal] at this
      | _ => trivial
  · rw [play_le _ _ _ _ _ (Nat.le_refl _), (Echo.wrun_play h).1]
  · refine ⟨fun cl hcl => hno _ (fun x hx => ?_), hno _ (fun x hx => ?_), hno _ (fun x hx => ?_), fun cl hcl => hno _ (fun x hx => ?_), hno _ (fun x hx => ?_), hno _ (fun x hx => ?_)⟩
    · cases x with
      | up y => exact (linkActs_plain hcl hx).2.2.1
      | _ => simp [EAct.upIs] at hx
    · cases x with
      | up y => cases y <;> first | trivial | simp [EAct.upIs, PAct.isTx] at hx
      | _ => simp [EAct.upIs] at hx
    · cases eq_of_beq hx; trivial
    · cases x with
      | down y => exact (linkActs_plain hcl hx).2.2.1
      | _ => simp [EAct.downIs] at hx
    · cases x with
      | down y => cases y <;> first | trivial | simp [EAct.downIs, PAct.isTx] at hx
      | _ => simp [EAct.downIs] at hx
    · cases x with
      | down y =>
        cases y with
        | rx z => simp only [EAct.downIs, PAct.isRx] at hx; cases eq_of_beq hx; rfl
        | _ => simp [EAct.downIs, PAct.isRx] at hx
      | _ => simp [EAct.downIs] at hx

end StAsio
