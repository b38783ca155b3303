import Verif.Props.C60_C61_UdpAddr
/-!
# C77: a started UDP socket goes on receiving

`Ua.Run c (Ua.init mode raw) as s es` as in Props/C60_C61_UdpAddr. A socket is up if it was started and is not being closed (`s.live`, `s.isOpen`). The kernel's queue of received datagrams is `s.kq`; the message of a datagram is
`dgramMsg` (Spec/UdpAddr.lean): its bytes, as far as they fit into the receive buffer, and nothing if it is empty.
-/
set_option autoImplicit false
set_option linter.unusedSimpArgs false
namespace StAsio

/-- What the library does by itself to receive: the outstanding receive completes, its handler runs (and suspends reception if the receive buffer is full), suspended reception is resumed. -/
def AAct.receives : AAct → Bool
  | .complete | .recvHandler _ | .resume => true
  | _ => false

/-- A receive failed since the socket was started. -/
def aFailed (f : Bool) : AAct → Bool
  | .recvError => true
  | .startRest _ => false
  | _ => f

def aFailedSinceStart (as : List AAct) : Bool := as.foldl aFailed false

/-- The contents of the messages in the kernel's queue, and before them the one whose handler is about to run. -/
def Ua.toCome (c : Cfg) (s : Ua) : List Bytes :=
  (match s.done with | some n => if n = 0 then [] else [s.raw.take n] | none => []) ++ (s.kq.flatMap (fun x => dgramMsg c.bufSize x.1 x.2)).map Prod.snd

/-- Bound for the number of steps the library needs. -/
def Ua.recvWork (s : Ua) : Nat := 4 * s.kq.length + (if s.done.isSome then 2 else 0) + (if s.susp then 1 else 0)

structure Ua.Alive (c : Cfg) (f : Bool) (s : Ua) : Prop where
  raw : s.raw.length = c.bufSize
  done : ∀ n, s.done = some n → n ≤ c.bufSize
  one : s.done ≠ none → s.out = false ∧ s.susp = false
  so : s.susp = true → s.out = false
  live : s.out = true ∨ s.done ≠ none ∨ s.susp = true → s.live = true
  starting : s.starting = true → s.live = false
  chain : f = false → s.live = true → s.isOpen = true → s.out = true ∨ s.done ≠ none ∨ s.susp = true

theorem Ua.alive_step {c : Cfg} {f : Bool} {s s' : Ua} {a : AAct} {es : List AEv} (h : Ua.Alive c f s) (hs : Ua.step c s a = some (s', es)) : Ua.Alive c (aFailed f a) s' := by
  obtain ⟨h1, h2, h3, h4, h5, h6, h7⟩ := h
  cases a with
  | complete =>
    simp only [Ua.step] at hs
    split at hs
    · cases hs
    · split at hs
      · cases hs
      · rename_i ho _ src d kq hq
        cases hw : writeAt s.raw 0 (d.take s.raw.length) with
        | none => simp [hw] at hs
        | some raw' =>
          simp only [hw, Option.pure_def, Option.bind_eq_bind, Option.bind_some, Option.some.injEq, Prod.mk.injEq] at hs
          obtain ⟨rfl, rfl⟩ := hs
          obtain ⟨r1, r2, _, _⟩ := dgram_read src h1 hw
          constructor <;> grind [aFailed]
  | recvHandler full =>
    simp only [Ua.step] at hs
    split at hs
    · cases hs
    · rename_i n hd
      simp only [Option.map_eq_some_iff] at hs
      obtain ⟨es', _, hs⟩ := hs
      simp only [Prod.mk.injEq] at hs
      obtain ⟨rfl, rfl⟩ := hs
      cases full <;> constructor <;> grind [aFailed]
  | _ =>
    simp only [Ua.step, Ua.accept] at hs <;> (repeat' split at hs) <;> first
      | (cases hs; done)
      | (simp only [Option.some.injEq, Prod.mk.injEq] at hs
         obtain ⟨rfl, rfl⟩ := hs
         constructor <;> grind [aFailed])

theorem Ua.alive_run {c : Cfg} {mode : Bool} {raw : Bytes} {as : List AAct} {s : Ua} {es : List AEv} (hraw : raw.length = c.bufSize) (hr : Ua.Run c (Ua.init mode raw) as s es) : Ua.Alive c (aFailedSinceStart as) s := by
  generalize h0 : Ua.init mode raw = s0 at hr
  induction hr with
  | nil => subst h0; constructor <;> simp [Ua.init, hraw]
  | snoc s1 s2 as a es es' hr hs ih =>
    subst h0
    have := Ua.alive_step ih hs
    simpa [aFailedSinceStart] using this

theorem aDelivered_append (es fs : List AEv) : aDelivered (es ++ fs) = aDelivered es ++ aDelivered fs := by
  induction es with
  | nil => rfl
  | cons e es ih => cases e <;> simp [aDelivered, ih]

/-- A step of the receiving library: the work goes down, and what it delivers and what is still to come is what was to come. -/
theorem Ua.receives_step {c : Cfg} {f : Bool} {s s' : Ua} {a : AAct} {es : List AEv} (h : Ua.Alive c f s) (hs : Ua.step c s a = some (s', es)) (ha : a.receives = true) :
    s'.recvWork < s.recvWork ∧ (aDelivered es).map Prod.snd ++ s'.toCome c = s.toCome c ∧ aFailed f a = f ∧ s'.live = s.live ∧ s'.isOpen = s.isOpen := by
  obtain ⟨h1, h2, h3, h4, h5, h6, h7⟩ := h
  cases a with
  | complete =>
    simp only [Ua.step] at hs
    split at hs
    · cases hs
    · split at hs
      · cases hs
      · rename_i ho _ src d kq hq
        cases hw : writeAt s.raw 0 (d.take s.raw.length) with
        | none => simp [hw] at hs
        | some raw' =>
          simp only [hw, Option.pure_def, Option.bind_eq_bind, Option.bind_some, Option.some.injEq, Prod.mk.injEq] at hs
          obtain ⟨rfl, rfl⟩ := hs
          obtain ⟨r1, r2, r3, r4⟩ := dgram_read src h1 hw
          have hd : s.done = none := by
            rcases Classical.em (s.done = none) with h | h
            · exact h
            · have := (h3 h).1; simp [this] at ho
          refine ⟨?_, ?_, rfl, rfl, rfl⟩
          · simp only [Ua.recvWork, hd, hq, List.length_cons, Option.isSome_some, Option.isSome_none, if_true]
            have : (if false = true then 2 else 0) = 0 := by simp
            simp only [this]
            omega
          · simp only [Ua.toCome, hd, hq, List.flatMap_cons, r4, aDelivered, List.map_nil, List.nil_append, List.map_append]
            by_cases h0 : (List.take s.raw.length d).length = 0
            · simp only [h0, if_true, List.map_nil]
            · simp only [h0, if_false, List.map_cons, List.map_nil]
  | recvHandler full =>
    simp only [Ua.step] at hs
    split at hs
    · cases hs
    · rename_i n hd
      have hn := h2 n hd
      have hsu := (h3 (by simp [hd])).2
      simp only [Ua.deliver, Udp.parse, readAt] at hs
      by_cases h0 : n = 0
      · simp only [h0, if_true, Option.map_some, Option.some.injEq, Prod.mk.injEq] at hs
        obtain ⟨rfl, rfl⟩ := hs
        refine ⟨?_, ?_, rfl, rfl, rfl⟩
        · cases full <;> simp [Ua.recvWork, hd, hsu]
        · simp [Ua.toCome, hd, h0, aDelivered]
      · have h3' : ¬ c.bufSize < n := by omega
        have h4' : 0 + n ≤ s.raw.length := by omega
        simp only [if_neg h0, if_neg h3', if_pos h4'] at hs
        simp only [Option.pure_def, Option.bind_eq_bind, Option.bind_some, Option.map_some, List.map_cons, List.map_nil, List.drop_zero, Option.some.injEq, Prod.mk.injEq] at hs
        obtain ⟨rfl, rfl⟩ := hs
        refine ⟨?_, ?_, rfl, rfl, rfl⟩
        · cases full <;> simp [Ua.recvWork, hd, hsu]
        · simp [Ua.toCome, hd, h0, aDelivered]
  | resume =>
    simp only [Ua.step] at hs
    split at hs
    · rename_i hsu
      simp only [Option.some.injEq, Prod.mk.injEq] at hs
      obtain ⟨rfl, rfl⟩ := hs
      refine ⟨by simp [Ua.recvWork, hsu], by simp [Ua.toCome, aDelivered], rfl, rfl, rfl⟩
    · cases hs
  | _ => simp [AAct.receives] at ha

/-- The library has something to do as long as something is to be received. -/
theorem Ua.receives_progress {c : Cfg} {s : Ua} (h : Ua.Alive c false s) (hl : s.live = true) (ho : s.isOpen = true) (hn : s.kq ≠ [] ∨ s.done ≠ none ∨ s.susp = true) :
    ∃ a s' es, AAct.receives a = true ∧ Ua.step c s a = some (s', es) := by
  obtain ⟨h1, h2, h3, h4, h5, h6, h7⟩ := h
  have hc := h7 rfl hl ho
  cases hd : s.done with
  | some n =>
    have hn' := h2 n hd
    refine ⟨.recvHandler false, ?_⟩
    simp only [Ua.step, hd, Ua.deliver, Udp.parse, readAt]
    by_cases h0 : n = 0
    · simp [h0, AAct.receives]
    · have h3' : ¬ c.bufSize < n := by omega
      have h4' : 0 + n ≤ s.raw.length := by omega
      simp only [if_neg h0, if_neg h3', if_pos h4']
      simp [AAct.receives]
  | none =>
    cases hsu : s.susp with
    | true => exact ⟨.resume, _, _, rfl, by simp [Ua.step, hsu]; exact ⟨rfl, rfl⟩⟩
    | false =>
      have ho' : s.out = true := by simpa [hd, hsu] using hc
      cases hk : s.kq with
      | nil => simp [hk, hd, hsu] at hn
      | cons x kq =>
        obtain ⟨src, d⟩ := x
        refine ⟨.complete, ?_⟩
        have : 0 + (List.take s.raw.length d).length ≤ s.raw.length := by simp; omega
        simp only [Ua.step, ho', hk, writeAt, if_pos this]
        simp [AAct.receives]

/-- **C77** (partial: no receive has failed since the socket was started). Whatever user, network and kernel did before - empty datagrams, datagrams too long, failed sends, suspended reception, earlier starts -, a socket that is up
receives what is in the kernel's queue: the library's own steps come to an end, they can be continued until the queue is empty and everything was handed over, and then what was handed over are the contents of these datagrams,
in order. -/
theorem C77_keeps_receiving_partial {c : Cfg} {mode : Bool} {raw : Bytes} {as : List AAct} {s : Ua} {es : List AEv} (hraw : raw.length = c.bufSize) (hr : Ua.Run c (Ua.init mode raw) as s es)
    (hl : s.live = true) (ho : s.isOpen = true) (hf : aFailedSinceStart as = false) :
    ∀ as' s' es', Ua.Run c s as' s' es' → (∀ a ∈ as', AAct.receives a = true) →
      as'.length ≤ s.recvWork ∧ (aDelivered es').map Prod.snd ++ s'.toCome c = s.toCome c ∧
      (s'.kq = [] ∧ s'.done = none → (aDelivered es').map Prod.snd = s.toCome c) ∧
      (¬ (s'.kq = [] ∧ s'.done = none) → ∃ a s'' es'', AAct.receives a = true ∧ Ua.step c s' a = some (s'', es'')) := by
  have h0 := Ua.alive_run hraw hr
  rw [hf] at h0
  suffices ∀ as' s' es', Ua.Run c s as' s' es' → (∀ a ∈ as', AAct.receives a = true) →
      Ua.Alive c false s' ∧ as'.length + s'.recvWork ≤ s.recvWork ∧ (aDelivered es').map Prod.snd ++ s'.toCome c = s.toCome c ∧ s'.live = true ∧ s'.isOpen = true by
    intro as' s' es' hr' ha
    obtain ⟨i1, i2, i3, i4, i5⟩ := this as' s' es' hr' ha
    refine ⟨by omega, i3, fun hq => ?_, fun hq => Ua.receives_progress i1 i4 i5 ?_⟩
    · have : s'.toCome c = [] := by simp [Ua.toCome, hq.1, hq.2]
      simpa [this] using i3
    · rcases Classical.em (s'.kq = []) with h | h
      · exact Or.inr (Or.inl (fun hd => hq ⟨h, hd⟩))
      · exact Or.inl h
  intro as' s' es' hr'
  induction hr' with
  | nil => intro _; exact ⟨h0, by simp, by simp [aDelivered], hl, ho⟩
  | snoc s1 s2 as' a es' es'' hr' hs ih =>
    intro ha
    obtain ⟨i1, i2, i3, i4, i5⟩ := ih (fun a h => ha a (by simp [h]))
    obtain ⟨j1, j2, j3, j4, j5⟩ := Ua.receives_step i1 hs (ha a (by simp))
    have := Ua.alive_step i1 hs
    rw [j3] at this
    refine ⟨this, by simp; omega, ?_, j4.trans i4, j5.trans i5⟩
    rw [aDelivered_append, List.map_append, List.append_assoc, j2, i3]

/-- **C77**, why: as long as no receive failed, a socket that is up has a receive outstanding, or the handler of one is about to run, or reception is suspended because of a full receive buffer and its timer is armed. -/
theorem C77_chain {c : Cfg} {mode : Bool} {raw : Bytes} {as : List AAct} {s : Ua} {es : List AEv} (hraw : raw.length = c.bufSize) (hr : Ua.Run c (Ua.init mode raw) as s es)
    (hl : s.live = true) (ho : s.isOpen = true) (hf : aFailedSinceStart as = false) : s.out = true ∨ s.done ≠ none ∨ s.susp = true := (Ua.alive_run hraw hr).chain hf hl ho

/-- Non-vacuity: a datagram that is too long, an empty one and a normal one; reception suspended in between. -/
theorem C77_demo : ∃ (as : List AAct) (s : Ua) (es : List AEv), Ua.Run { huge := false, bufSize := 3 } (Ua.init false [0, 0, 0]) as s es ∧ s.live = true ∧ s.isOpen = true ∧ aFailedSinceStart as = false ∧ s.susp = true ∧
    s.toCome { huge := false, bufSize := 3 } = [[4, 5, 6], [7]] ∧ s.kq.length = 3 :=
  ⟨[.startBind true, .startRest true, .arrive ⟨1, 1⟩ [1], .complete, .recvHandler true, .arrive ⟨2, 2⟩ [4, 5, 6, 9, 9], .arrive ⟨1, 1⟩ [], .arrive ⟨3, 3⟩ [7]], _, _, Ua.exec_run rfl, by decide +kernel⟩

/-- Nobody receives, although the socket was started. -/
def Ua.Deaf (s : Ua) : Prop := s.live = true ∧ s.out = false ∧ s.done = none ∧ s.susp = false ∧ s.starting = false

theorem Ua.deaf_run {c : Cfg} {s s' : Ua} {as : List AAct} {es : List AEv} (h : s.Deaf) (hr : Ua.Run c s as s' es) (hn : AAct.closed ∉ as) : aDelivered es = [] ∧ s'.Deaf := by
  induction hr with
  | nil => exact ⟨rfl, h⟩
  | snoc s2 s3 as a es es' hr hs ih =>
    obtain ⟨i0, i1, i2, i3, i4, i5⟩ := ih (fun h => hn (by simp [h]))
    rw [aDelivered_append, i0, List.nil_append]
    have hna : a ≠ .closed := fun h => hn (by simp [h])
    cases a with
    | closed => exact absurd rfl hna
    | _ =>
      simp only [Ua.step, Ua.accept, i1, i2, i3, i4, i5] at hs <;> (repeat' split at hs) <;> first
        | (cases hs; done)
        | (simp at hs; done)
        | (exfalso; simp_all; done)
        | (simp only [Option.some.injEq, Prod.mk.injEq] at hs
           obtain ⟨rfl, rfl⟩ := hs
           refine ⟨rfl, ?_, ?_, ?_, ?_, ?_⟩ <;> first | assumption | rfl)

/-- One failed receive ends reception: from then on, until the socket was closed completely, whatever happens nothing is handed over any more. -/
theorem C77_deaf_after_error {c : Cfg} {mode : Bool} {raw : Bytes} {as : List AAct} {s s1 : Ua} {es es1 : List AEv} (hraw : raw.length = c.bufSize) (hr : Ua.Run c (Ua.init mode raw) as s es)
    (he : Ua.step c s .recvError = some (s1, es1)) : ∀ as' s' es', Ua.Run c s1 as' s' es' → AAct.closed ∉ as' → aDelivered es' = [] ∧ s'.live = true := by
  obtain ⟨h1, h2, h3, h4, h5, h6, h7⟩ := Ua.alive_run hraw hr
  intro as' s' es' hr' hn
  have h0 : s1.Deaf := by
    simp only [Ua.step] at he
    split at he
    · cases he
    · simp only [Option.some.injEq, Prod.mk.injEq] at he
      obtain ⟨rfl, rfl⟩ := he
      rename_i ho
      have ho : s.out = true := by simpa using ho
      have hl := h5 (Or.inl ho)
      refine ⟨hl, rfl, ?_, ?_, ?_⟩
      · rcases Classical.em (s.done = none) with h | h
        · exact h
        · have := (h3 h).1; simp [this] at ho
      · cases hsu : s.susp with
        | false => rfl
        | true => have := h4 hsu; simp [this] at ho
      · cases hst : s.starting with
        | false => rfl
        | true => have := h6 hst; simp [this] at hl
  obtain ⟨i1, i2⟩ := Ua.deaf_run h0 hr' hn
  exact ⟨i1, i2.1⟩

/-- C77 is false: a receive that fails - on Linux the kernel reports the ICMP answer 'port unreachable' to an earlier send this way, if the socket is connected - is not followed by another one (udp/socket.h:317-323), so the datagrams
that come in later are never handed over, although the socket is started and goes on sending. -/
theorem C77_fails_error : ∃ (as : List AAct) (s : Ua) (es : List AEv), Ua.Run { huge := false, bufSize := 3 } (Ua.init true [0, 0, 0]) as s es ∧ s.live = true ∧ s.isOpen = true ∧
    es.getLast? = some (.transmitted ⟨1, 1⟩ [8]) ∧ s.kq = [(⟨1, 1⟩, [7])] ∧
    ∀ as' s' es', Ua.Run { huge := false, bufSize := 3 } s as' s' es' → AAct.closed ∉ as' → aDelivered es' = [] := by
  have h1 : Ua.Run { huge := false, bufSize := 3 } (Ua.init true [0, 0, 0])
    [.setPeer ⟨1, 1⟩, .startBind true, .startRest true, .recvError, .arrive ⟨1, 1⟩ [7], .sendDefault [8] false, .take, .sendDone true] _ _ := Ua.exec_run rfl
  exact ⟨_, _, _, h1, by decide +kernel, by decide +kernel, by decide +kernel, by decide +kernel, fun as' s' es' hr hn => (Ua.deaf_run ⟨rfl, rfl, rfl, rfl, rfl⟩ hr hn).1⟩

end StAsio
