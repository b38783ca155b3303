import Verif.Model.UdpAddr
/-! Invariant of the address model (Model/UdpAddr): it follows the ideal socket. -/
set_option autoImplicit false
set_option linter.unusedSimpArgs false
namespace StAsio

/-- The peer address is not changed between start and the end of closing, and no datagram arrives between bind and connect of start(). -/
def AFixed : AEv → Prop
  | .peerSet _ live => live = false
  | .got _ _ gap => gap = false
  | _ => True

instance : DecidablePred AFixed := fun e => by cases e <;> simp only [AFixed] <;> infer_instance

/-- The message in the buffer. -/
def Ua.pend (s : Ua) : List (UAddr × Bytes) :=
  match s.done with
  | none => []
  | some n => if n = 0 then [] else [(if s.connected then s.peer else s.temp, s.raw.take n)]

/-- What is in the kernel's queue, as messages. -/
def Ua.queue (c : Cfg) (s : Ua) : List (UAddr × Bytes) := s.kq.flatMap (fun x => dgramMsg c.bufSize x.1 x.2)

structure Ua.Inv (c : Cfg) (k : Bool) (s : Ua) (t : IdealUa) : Prop where
  raw : s.raw.length = c.bufSize
  done : ∀ n, s.done = some n → n ≤ c.bufSize
  doneLive : s.done ≠ none → s.live = true
  outLive : s.out = true → s.live = true
  one : s.done ≠ none → s.out = false ∧ s.susp = false
  so : s.susp = true → s.live = true ∧ s.out = false
  curLive : s.cur ≠ none → s.live = true
  startLive : s.starting = true → s.live = false ∧ s.kpeer = none ∧ s.isOpen = true
  kq : s.kq ≠ [] → (s.live = true ∧ s.isOpen = true) ∨ s.starting = true
  peer : s.live = true → t.peer = if s.connected then s.kpeer else none
  kp : s.live = true → s.connected = true → s.kpeer ≠ none
  kn : s.live = true → s.connected = false → s.kpeer = none
  expect : t.expect = s.pend ++ s.queue c
  waiting : t.waiting = s.sendq
  flight : t.flight = s.cur
  cm : s.connected = true → s.mode = true
  free : k = true → s.mode = false
  gap : k = false → s.starting = true → s.kq = []
  same : k = false → s.live = true → s.connected = true → s.kpeer = some s.peer ∧ ∀ x ∈ s.kq, x.1 = s.peer

theorem Ua.inv_init (c : Cfg) (k mode : Bool) (raw : Bytes) (hr : raw.length = c.bufSize) (hm : k = true → mode = false) : Ua.Inv c k (Ua.init mode raw) IdealUa.empty := by
  constructor <;> simp [Ua.init, IdealUa.empty, Ua.pend, Ua.queue, hr]
  exact hm

theorem IdealUa.monitor_append {size : Nat} (t : IdealUa) (es fs : List AEv) : IdealUa.monitor size t (es ++ fs) = (IdealUa.monitor size t es).bind (fun t => IdealUa.monitor size t fs) := by
  induction es generalizing t with
  | nil => rfl
  | cons e es ih =>
    simp only [List.cons_append, IdealUa.monitor]
    split <;> simp_all

theorem dgram_read {size : Nat} {raw raw' d : Bytes} (src : UAddr) (hr : raw.length = size) (hw : writeAt raw 0 (d.take raw.length) = some raw') :
    raw'.length = size ∧ (d.take raw.length).length ≤ size ∧ raw'.take (d.take raw.length).length = d.take size ∧
    dgramMsg size src d = if (d.take raw.length).length = 0 then [] else [(src, raw'.take (d.take raw.length).length)] := by
  unfold writeAt at hw
  split at hw
  · rename_i hl
    simp only [Option.some.injEq] at hw
    subst hw
    have h1 : (List.take 0 raw ++ List.take raw.length d ++ List.drop (0 + (List.take raw.length d).length) raw).take (List.take raw.length d).length = d.take size := by
      rw [hr]; simp
    refine ⟨?_, by simp; omega, h1, ?_⟩
    · simp; omega
    · rw [h1]; simp only [dgramMsg]
      by_cases h0 : List.take size d = []
      · simp [h0, hr]
      · have : (List.take raw.length d).length ≠ 0 := by
          rw [hr]; intro h2; exact h0 (List.eq_nil_of_length_eq_zero h2)
        rw [if_neg h0, if_neg this]
  · cases hw

theorem Ua.inv_step {c : Cfg} {k : Bool} {s s' : Ua} {t : IdealUa} {a : AAct} {es : List AEv} (h : Ua.Inv c k s t) (hs : Ua.step c s a = some (s', es))
    (hk1 : k = true → s'.mode = false) (hk2 : k = false → ∀ e ∈ es, AFixed e) : ∃ t', IdealUa.monitor c.bufSize t es = some t' ∧ Ua.Inv c k s' t' := by
  obtain ⟨h1, h2, h3, h4, h5, h5', h6, h7, h8, h9, h10, h11, h12, h13, h14, h15, h16, h17, h18⟩ := h
  cases a with
  | complete =>
    simp only [Ua.step] at hs
    split at hs
    · cases hs
    · split at hs
      · cases hs
      · rename_i src d kq hq
        rename_i ho _
        cases hw : writeAt s.raw 0 (d.take s.raw.length) with
        | none => simp [hw] at hs
        | some raw' =>
          simp only [hw, Option.pure_def, Option.bind_eq_bind, Option.bind_some, Option.some.injEq, Prod.mk.injEq] at hs
          obtain ⟨rfl, rfl⟩ := hs
          obtain ⟨r1, r2, r3, r4⟩ := dgram_read src h1 hw
          have hd : s.done = none := by grind
          refine ⟨t, rfl, ?_⟩
          constructor
          case expect =>
            have : s.connected = true → src = s.peer := by
              intro hc
              have hm := h15 hc
              cases k
              · exact (h18 rfl (h4 (by simpa using ho)) hc).2 (src, d) (by simp [hq])
              · exact absurd (h16 rfl) (by simp [hm])
            rw [h12]
            simp only [Ua.pend, Ua.queue, hd, hq, List.flatMap_cons, r4, List.nil_append]
            by_cases hc : s.connected = true
            · simp only [hc, this hc, if_true]
            · rw [if_neg hc]; simp only [Bool.not_eq_true] at hc; simp only [hc]; simp
          all_goals grind
  | recvHandler full =>
    simp only [Ua.step] at hs
    split at hs
    · cases hs
    · rename_i n hd
      have hn := h2 n hd
      simp only [Ua.deliver, Udp.parse, readAt] at hs
      by_cases h0 : n = 0
      · simp only [h0, if_true, Option.map_some, Option.some.injEq, Prod.mk.injEq] at hs
        obtain ⟨rfl, rfl⟩ := hs
        refine ⟨t, rfl, ?_⟩
        constructor <;> grind [Ua.pend, Ua.queue]
      · have h3' : ¬ c.bufSize < n := by omega
        have h4' : 0 + n ≤ s.raw.length := by omega
        simp only [if_neg h0, if_neg h3', if_pos h4'] at hs
        simp only [Option.pure_def, Option.bind_eq_bind, Option.bind_some, Option.map_some, List.map_cons, List.map_nil, List.drop_zero, Option.some.injEq, Prod.mk.injEq] at hs
        obtain ⟨rfl, rfl⟩ := hs
        have he : t.expect = (if s.connected then s.peer else s.temp, s.raw.take n) :: s.queue c := by
          rw [h12]; simp [Ua.pend, hd, h0]
        refine ⟨{ t with expect := s.queue c }, by simp [IdealUa.monitor, IdealUa.event, he], ?_⟩
        constructor <;> grind [Ua.pend, Ua.queue]
  | setPeer p =>
    simp only [Ua.step, Option.some.injEq, Prod.mk.injEq] at hs
    obtain ⟨rfl, rfl⟩ := hs
    have hf : k = false → s.live = false := by intro hh; simpa [AFixed] using hk2 hh
    have hc : s.done ≠ none → s.connected = false := by grind
    refine ⟨t, rfl, ?_⟩
    constructor
    case expect =>
      rw [h12]
      simp only [Ua.pend, Ua.queue]
      cases hd : s.done with
      | none => rfl
      | some n => simp [hc (by simp [hd])]
    all_goals grind
  | arrive src d =>
    simp only [Ua.step] at hs
    split at hs
    · have hg : k = false → s.starting = true → (src, d) ∈ s'.kq → s' = s := by
        intro hh h1' h2'
        (repeat' split at hs) <;> (simp only [Option.some.injEq, Prod.mk.injEq] at hs; obtain ⟨rfl, rfl⟩ := hs) <;> simp_all [AFixed]
      (repeat' split at hs) <;> (simp only [Option.some.injEq, Prod.mk.injEq] at hs; obtain ⟨rfl, rfl⟩ := hs; refine ⟨_, rfl, ?_⟩)
      all_goals constructor
      all_goals try simp only [IdealUa.event, Ua.pend, Ua.queue, List.flatMap_append, List.flatMap_cons, List.flatMap_nil, List.append_nil]
      all_goals grind [Ua.pend, Ua.queue]
    · cases hs
  | take =>
    simp only [Ua.step] at hs
    (repeat' split at hs) <;> first
      | (cases hs; done)
      | skip
    rename_i hl _ x q hq
    simp only [Option.some.injEq, Prod.mk.injEq] at hs
    obtain ⟨rfl, rfl⟩ := hs
    have hf : t.flight = none := by grind [Option.isSome_iff_ne_none]
    refine ⟨{ t with waiting := q, flight := some x }, by simp [IdealUa.monitor, IdealUa.event, h13, hq, hf], ?_⟩
    constructor <;> grind [AFixed, Ua.pend, Ua.queue]
  | sendDone ok =>
    simp only [Ua.step] at hs
    split at hs
    · cases hs
    · rename_i x hx
      have hl := h6 (by simp [hx])
      (repeat' split at hs) <;> first
        | (cases hs; done)
        | (simp only [Option.some.injEq, Prod.mk.injEq] at hs
           obtain ⟨rfl, rfl⟩ := hs
           refine ⟨{ t with flight := none }, by simp_all [IdealUa.monitor, IdealUa.event], ?_⟩
           constructor <;> grind [AFixed, Ua.pend, Ua.queue])
  | close =>
    simp only [Ua.step] at hs
    split at hs
    · simp only [Option.some.injEq, Prod.mk.injEq] at hs
      obtain ⟨rfl, rfl⟩ := hs
      refine ⟨_, rfl, ?_⟩
      constructor
      case expect =>
        simp only [IdealUa.event, h12, Ua.pend, Ua.queue]
        cases hd : s.done with
        | none => simp
        | some n => by_cases h0 : n = 0 <;> simp [h0]
      all_goals grind [Ua.pend, Ua.queue]
    · cases hs
  | _ =>
    simp only [Ua.step, Ua.accept] at hs <;> (repeat' split at hs) <;> first
      | (cases hs; done)
      | (simp only [Option.some.injEq, Prod.mk.injEq] at hs
         obtain ⟨rfl, rfl⟩ := hs
         refine ⟨_, rfl, ?_⟩
         constructor <;> grind [AFixed, Ua.pend, Ua.queue])

theorem Ua.mode_step {c : Cfg} {s s' : Ua} {a : AAct} {es : List AEv} (hs : Ua.step c s a = some (s', es)) (hm : s'.mode = false) : s.mode = false := by
  cases a with
  | complete =>
    simp only [Ua.step] at hs
    split at hs
    · cases hs
    · split at hs
      · cases hs
      · rename_i src d kq hq
        cases hw : writeAt s.raw 0 (d.take s.raw.length) with
        | none => simp [hw] at hs
        | some raw' =>
          simp only [hw, Option.pure_def, Option.bind_eq_bind, Option.bind_some, Option.some.injEq, Prod.mk.injEq] at hs
          obtain ⟨rfl, rfl⟩ := hs
          exact hm
  | recvHandler full =>
    simp only [Ua.step] at hs
    split at hs
    · cases hs
    · simp only [Option.map_eq_some_iff] at hs
      obtain ⟨_, _, hs⟩ := hs
      cases hs; exact hm
  | _ =>
    simp only [Ua.step, Ua.accept] at hs <;> (repeat' split at hs) <;> first
      | (cases hs; done)
      | (simp only [Option.some.injEq, Prod.mk.injEq] at hs
         obtain ⟨rfl, rfl⟩ := hs
         first | exact hm | simp at hm)

theorem Ua.inv_run {c : Cfg} {k mode : Bool} {raw : Bytes} {as : List AAct} {s : Ua} {es : List AEv} (hraw : raw.length = c.bufSize) (hr : Ua.Run c (Ua.init mode raw) as s es)
    (hk1 : k = true → s.mode = false) (hk2 : k = false → ∀ e ∈ es, AFixed e) : ∃ t, IdealUa.monitor c.bufSize IdealUa.empty es = some t ∧ Ua.Inv c k s t := by
  generalize h0 : Ua.init mode raw = s0 at hr
  induction hr with
  | nil => subst h0; exact ⟨_, rfl, Ua.inv_init c k mode raw hraw (by simpa [Ua.init] using hk1)⟩
  | snoc s1 s2 as a es es' _ hs ih =>
    obtain ⟨t, h1, h2⟩ := ih (fun hh => Ua.mode_step hs (hk1 hh)) (fun hh e he => hk2 hh e (by simp [he]))
    obtain ⟨t', h3, h4⟩ := Ua.inv_step h2 hs hk1 (fun hh e he => hk2 hh e (by simp [he]))
    exact ⟨t', by rw [IdealUa.monitor_append, h1]; exact h3, h4⟩

end StAsio
