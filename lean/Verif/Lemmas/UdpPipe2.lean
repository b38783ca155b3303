import Verif.Lemmas.UdpPipe
/-!
Lemmas for C96: what the senders and the network do with a datagram; nothing gets stuck.
-/
set_option autoImplicit false
namespace StAsio

/-! ### lists of numbers -/

theorem sublist_of_sorted : ∀ {l1 l2 : List Nat}, l1.Pairwise (· < ·) → l2.Pairwise (· < ·) → (∀ x ∈ l1, x ∈ l2) → l1.Sublist l2 := by
  intro l1 l2
  induction l2 generalizing l1 with
  | nil =>
    intro _ _ h
    cases l1 with
    | nil => exact List.Sublist.refl _
    | cons x l1 => exact absurd (h x (by simp)) (by simp)
  | cons y l2 ih =>
    intro h1 h2 h
    rw [List.pairwise_cons] at h2
    cases l1 with
    | nil => exact List.nil_sublist _
    | cons x l1 =>
      rw [List.pairwise_cons] at h1
      by_cases hxy : x = y
      · subst hxy
        refine List.Sublist.cons_cons _ (ih h1.2 h2.2 ?_)
        intro z hz
        have := h1.1 z hz
        rcases List.mem_cons.1 (h z (by simp [hz])) with hzx | hzx
        · omega
        · exact hzx
      · refine List.Sublist.cons _ (ih (List.pairwise_cons.mpr h1) h2.2 ?_)
        intro z hz
        have hx : x ∈ l2 := by
          rcases List.mem_cons.1 (h x (by simp)) with hx | hx
          · exact absurd hx hxy
          · exact hx
        have hyx := h2.1 x hx
        rcases List.mem_cons.1 (h z hz) with hzx | hzx
        · rcases List.mem_cons.1 hz with rfl | hz
          · exact absurd hzx hxy
          · have := h1.1 z hz; omega
        · exact hzx

theorem countP_le_of_nodup {p : Nat → Bool} : ∀ {l1 l2 : List Nat}, l1.Nodup → (∀ x ∈ l1, x ∈ l2) → l1.countP p ≤ l2.countP p := by
  intro l1
  induction l1 with
  | nil => intro l2 _ _; simp
  | cons x l1 ih =>
    intro l2 hn h
    rw [List.nodup_cons] at hn
    have hx : x ∈ l2 := h x (by simp)
    have h1 := ih (l2 := l2.erase x) hn.2 (by
      intro z hz
      have hzx : z ≠ x := fun he => hn.1 (he ▸ hz)
      exact (List.mem_erase_of_ne hzx).2 (h z (by simp [hz])))
    have h2 : l2.countP p = (x :: l2.erase x).countP p := (List.perm_cons_erase hx).countP_eq p
    rw [h2]
    simp only [List.countP_cons]
    omega

theorem mine_sorted (me : Nat) : ∀ (n : Nat) (xs : List (Nat × UMsg)), (mine me n xs).Pairwise (· < ·) := by
  intro n xs
  induction xs generalizing n with
  | nil => simp [mine]
  | cons x xs ih =>
    simp only [mine]
    split
    · refine List.pairwise_cons.mpr ⟨?_, ih _⟩
      intro k hk
      have := (mine_mem hk).1
      omega
    · exact ih _

theorem mem_mine {me : Nat} : ∀ {xs : List (Nat × UMsg)} {n k : Nat} {x : Nat × UMsg}, xs[k]? = some x → x.2.peer = me → n + k ∈ mine me n xs := by
  intro xs
  induction xs with
  | nil => intro n k x h; simp at h
  | cons y xs ih =>
    intro n k x h hp
    cases k with
    | zero =>
      simp at h
      subst h
      simp [mine, hp]
    | succ k =>
      rw [List.getElem?_cons_succ] at h
      have := ih (n := n + 1) h hp
      rw [show n + 1 + k = n + (k + 1) by omega] at this
      simp only [mine]
      split
      · exact List.mem_cons_of_mem _ this
      · exact this

/-- What is looked up under the numbers of the datagrams for `me`. -/
theorem mine_filterMap {me : Nat} {β : Type} (f : Nat × UMsg → Option β) : ∀ (ys xs : List (Nat × UMsg)),
    (mine me ys.length xs).filterMap (fun k => ((ys ++ xs)[k]?).bind f) = (xs.filter (fun x => x.2.peer == me)).filterMap f := by
  intro ys xs
  induction xs generalizing ys with
  | nil => simp [mine]
  | cons x xs ih =>
    have h1 := ih (ys ++ [x])
    rw [List.length_append, List.length_singleton, List.append_assoc, List.singleton_append] at h1
    simp only [mine]
    by_cases hp : x.2.peer = me
    · rw [if_pos hp, List.filterMap_cons, h1, List.filter_cons_of_pos (by simpa using hp), List.filterMap_cons]
      simp
    · rw [if_neg hp, h1, List.filter_cons_of_neg (by simpa using hp)]

/-! ### one sender -/

theorem uMonitor_count {t t' : IdealUx} {es : List UEv} (h : t.monitor es = some t') (m : UMsg) : (uHanded es).count m + t'.waiting.count m ≤ t.waiting.count m + (uAccepted es).count m := by
  induction es generalizing t with
  | nil => simp [IdealUx.monitor] at h; subst h; simp [uHanded, uAccepted]
  | cons e es ih =>
    simp only [IdealUx.monitor] at h
    split at h
    · cases h
    · next t1 he =>
      have ih := ih h
      cases e <;> simp only [IdealUx.event] at he <;> simp only [uHanded, uAccepted]
      case accept x prior =>
        simp only [Option.some.injEq] at he
        subst he
        cases prior <;> simp only [Bool.false_eq_true, if_true, if_false, List.count_cons, List.count_append, List.count_nil] at ih ⊢ <;> omega
      case handOff x =>
        split at he
        · rw [Option.map_eq_some_iff] at he
          obtain ⟨w, h1, rfl⟩ := he
          have := uStrip_some h1
          rw [this]
          simp only [List.count_cons, List.singleton_append] at ih ⊢
          omega
        · cases he
      case popped ms | discarded ms | cleared ms =>
        rw [Option.map_eq_some_iff] at he
        obtain ⟨w, h1, rfl⟩ := he
        have := uStrip_some h1
        rw [this, List.count_append]
        simp only at ih
        omega
      all_goals
        (try split at he) <;> first
        | (cases he; done)
        | (simp only [Option.some.injEq] at he; subst he; exact ih)

theorem uSent_handed (es : List UEv) : (uSent es).Sublist ((uOutcomes es).map (fun o => o.1)) := by
  rw [uSent_outcomes]
  exact (List.filter_sublist (l := uOutcomes es)).map _

section
variable {me : Nat} {u : Cfg} {c : MCfg} {limit : Nat}

theorem UPipe.Good.sender {s : UPipe} {es : List UPEv} (h : s.Good me u c limit es) (i : Nat) :
    (s.tx i).Inv ∧ (IdealUx.mk [] none).monitor (upTx i es) = some ⟨(s.tx i).q.items, (s.tx i).cur⟩ ∧ leftBy i (upLeft es) = uSent (upTx i es) ++ (s.tx i).pendingOk := by
  obtain ⟨tas, g1, g2, _⟩ := h.tx i
  have g0 := Ux.run_trans Ux.up_run g1
  refine ⟨(Ux.run_ok g0).1, C24_ideal_sender false _ _ _ g0, ?_⟩
  rw [← h.wire i]
  have hup := Ux.run_ok Ux.up_run
  have := (Ux.run_wire hup.1 hup.2.1 g1 rfl (by intro hx; have := g2 _ hx; simp [UAct.stays] at this)).2.2
  rw [this]
  rfl

/-- The datagrams that left a socket were handed over by it, in this order. -/
theorem UPipe.Good.handed {s : UPipe} {es : List UPEv} (h : s.Good me u c limit es) (i : Nat) : (leftBy i (upLeft es)).Sublist (uHanded (upTx i es)) := by
  obtain ⟨hi, hm, hl⟩ := h.sender i
  have ho := uMonitor_outcomes hm
  have ho : uHanded (upTx i es) = (uOutcomes (upTx i es)).map (fun o => o.1) ++ (s.tx i).cur.toList := by simpa using ho
  rw [hl, ho]
  refine (uSent_handed _).append ?_
  have h1 := hi.owner
  have h2 : (s.tx i).sending.toNat ≤ 1 := Bool.toNat_le _
  unfold Ux.pendingOk
  cases hd : (s.tx i).dones with
  | nil => simp
  | cons d l =>
    have hl : l = [] := by
      rw [hd] at h1
      simp only [List.length_cons] at h1
      cases l with
      | nil => rfl
      | cons _ _ => simp only [List.length_cons] at h1; omega
    subst hl
    rw [hi.dcur d (by simp [hd])]
    exact (List.filter_sublist (l := [d])).map _

/-! ### the network -/

theorem up_copies_alone {L : List (Nat × UMsg)} {es : List UPEv} (h : ∀ k d, UPEv.arrived (some k) d ∈ es → ∃ i m, L[k]? = some (i, m) ∧ m.peer = me ∧ m.data = d) (ha : upAlone es) :
    upArrived es = (upCopies es).filterMap (fun k => (L[k]?).bind (fun x => some x.2.data)) := by
  induction es with
  | nil => rfl
  | cons e es ih =>
    have ih := ih (fun k d hk => h k d (by simp [hk])) (fun d hd => ha d (by simp [hd]))
    cases e with
    | arrived k d =>
      cases k with
      | none => exact absurd (List.mem_cons_self ..) (ha d)
      | some k =>
        obtain ⟨i, m, h1, _, h3⟩ := h k d (by simp)
        simp only [upArrived, upCopies, List.filterMap_cons, ih, h1, Option.bind_some, h3]
    | _ => simpa [upArrived, upCopies] using ih

theorem UPipe.Good.copies_mine {s : UPipe} {es : List UPEv} (h : s.Good me u c limit es) : ∀ k ∈ upCopies es, k ∈ mine me 0 (upLeft es) := by
  intro k hk
  have : ∃ d, UPEv.arrived (some k) d ∈ es := by
    have hc := h.copies
    clear h hc
    induction es with
    | nil => cases hk
    | cons e es ih =>
      cases e with
      | arrived k' d =>
        cases k' with
        | none => obtain ⟨d, hd⟩ := ih hk; exact ⟨d, by simp [hd]⟩
        | some k' =>
          rcases List.mem_cons.1 hk with rfl | hk
          · exact ⟨d, by simp⟩
          · obtain ⟨d, hd⟩ := ih hk; exact ⟨d, by simp [hd]⟩
      | _ => obtain ⟨d, hd⟩ := ih hk; exact ⟨d, by simp [hd]⟩
  obtain ⟨d, hd⟩ := this
  obtain ⟨i, m, h1, h2, _⟩ := h.copies k d hd
  have := mem_mine (n := 0) h1 h2
  rwa [Nat.zero_add] at this

/-- The content of the k-th datagram, if it is one of socket `i`. -/
def contentOf (i : Nat) (xs : List (Nat × UMsg)) (k : Nat) : Option Bytes :=
  match xs[k]? with
  | some (j, m) => if j = i then some m.data else none
  | none => none

theorem mine_from (me i : Nat) (xs : List (Nat × UMsg)) : (mine me 0 xs).filterMap (contentOf i xs) = toMe me (leftBy i xs) := by
  have h1 : contentOf i xs = (fun k => (([] ++ xs)[k]?).bind (fun x : Nat × UMsg => if x.1 = i then some x.2.data else none)) := by
    funext k
    rw [List.nil_append, contentOf]
    cases xs[k]? <;> rfl
  rw [h1]
  have := mine_filterMap (me := me) (fun x : Nat × UMsg => if x.1 = i then some x.2.data else none) [] xs
  rw [List.length_nil] at this
  rw [this]
  clear this h1
  induction xs with
  | nil => rfl
  | cons x xs ih =>
    rw [show x :: xs = [x] ++ xs from rfl, leftBy_append, List.filter_append, List.filterMap_append, ih]
    simp only [toMe, List.filter_append, List.map_append]
    congr 1
    obtain ⟨j, m⟩ := x
    by_cases hj : j = i <;> by_cases hp : m.peer = me <;> simp [leftBy, hj, hp]

theorem toMe_sublist {a b : List UMsg} (h : a.Sublist b) : (toMe me a).Sublist (toMe me b) := (h.filter _).map _

/-! ### nothing gets stuck -/

theorem UPipe.Good.live {s : UPipe} {es : List UPEv} (h : s.Good me u c limit es) : s.rm.Live c := by
  obtain ⟨mas, hr, _⟩ := h.rm
  exact ⟨h.rm_inv.1, h.rm_inv.2, h.ready, h.dlost, h.ec, fun hc => (Rm.asked_run hc hr).2.2⟩

theorem UPipe.Good.keeps {s : UPipe} {es : List UPEv} (h : s.Good me u c limit es) (hc : c.passive = false) : s.rm.out = true ∨ s.rm.hp ≠ .idle ∨ 0 < s.rm.rposted ∨ s.rm.ctimer = true := by
  obtain ⟨mas, hr, hf⟩ := h.rm
  exact C57_keeps_receiving hc hr hf h.ready

theorem UPipe.lift {s : UPipe} {r : Rm} {bs : List MAct} {fs : List MEv} (h : Rm.Run c limit s.rm bs r fs) (hb : ∀ b ∈ bs, b.Go c) :
    UPipe.Run me u c limit s (bs.map .rx) { s with rm := r } (fs.map .rx) := by
  generalize h0 : s.rm = r0 at h
  induction h with
  | nil => subst h0; exact UPipe.Run.nil _
  | snoc r1 r2 bs b es fs _ hh hs ih =>
    rw [List.map_append, List.map_append]
    refine UPipe.run_trans (ih (fun x hx => hb x (by simp [hx]))) (UPipe.run_one ?_)
    simp only [UPipe.step, (hb b (by simp)).ok hh, if_true, hs]
    rfl

theorem MAct.go_goes {bs : List MAct} (hb : ∀ b ∈ bs, b.Go c) : ∀ a ∈ bs.map UPAct.rx, a.Goes c.passive := by
  intro a ha
  rw [List.mem_map] at ha
  obtain ⟨b, hb', rfl⟩ := ha
  exact hb b hb'

/-- A sender that is not quiet can do a step in which no send fails. -/
theorem Ux.progress_ok {s : Ux} (h : ¬ s.Quiet) : ∃ a s' es, UAct.Internal a ∧ (UPAct.tx 0 a).Goes false ∧ s.step false a = some (s', es) := by
  obtain ⟨a, s', es, ha, hs⟩ := Ux.progress false s h
  by_cases hc : ∃ i f, a = .complete i false f
  · obtain ⟨i, f, rfl⟩ := hc
    simp only [Ux.step, Option.bind_eq_bind, Option.bind_eq_some_iff] at hs
    obtain ⟨w, hw, hs⟩ := hs
    exact ⟨.complete i true false, _, _, trivial, trivial, by simp only [Ux.step, hw, Option.bind_eq_bind, Option.bind_some]; rfl⟩
  · refine ⟨a, s', es, ha, ?_, hs⟩
    cases a <;> simp only [UAct.Internal] at ha <;> simp only [UPAct.Goes]
    rename_i i ok f
    cases ok with
    | true => trivial
    | false => exact absurd ⟨i, f, rfl⟩ hc

theorem UPAct.goes_stays {p : Bool} {i : Nat} {a : UAct} (h : (UPAct.tx i a).Goes p) : a.stays = true := by
  cases a <;> simp_all [UPAct.Goes, UAct.stays]

/-- Nothing is sent and no send fails on its own. -/
structure Steady (fs : List UPEv) : Prop where
  acc : ∀ i, uAccepted (upTx i fs) = []
  arr : upArrived fs = []
  cop : upCopies fs = []

theorem Steady.append {es fs : List UPEv} (h1 : Steady es) (h2 : Steady fs) : Steady (es ++ fs) :=
  ⟨fun i => by rw [upTx_append, uAccepted_append, h1.acc, h2.acc]; rfl, by rw [upArrived_append, h1.arr, h2.arr]; rfl, by rw [upCopies_append, h1.cop, h2.cop]; rfl⟩

theorem UPipe.sends_out (i : Nat) : ∀ (n : Nat) (s : UPipe), (s.tx i).work ≤ n →
    ∃ as s' fs, UPipe.Run me u c limit s as s' fs ∧ (∀ a ∈ as, a.Goes c.passive ∧ ∃ x, a = .tx i x) ∧ Steady fs ∧ (s'.tx i).Quiet ∧ (∀ j, j ≠ i → s'.tx j = s.tx j) ∧ s'.kq = s.kq ∧ s'.rm = s.rm := by
  intro n
  induction n with
  | zero =>
    intro s hw
    by_cases hq : (s.tx i).Quiet
    · exact ⟨[], s, [], UPipe.Run.nil s, by simp, ⟨fun _ => rfl, rfl, rfl⟩, hq, fun _ _ => rfl, rfl, rfl⟩
    · obtain ⟨a, t, tes, ha, _, hs⟩ := Ux.progress_ok hq
      have := Ux.step_work ha hs
      omega
  | succ n ih =>
    intro s hw
    by_cases hq : (s.tx i).Quiet
    · exact ⟨[], s, [], UPipe.Run.nil s, by simp, ⟨fun _ => rfl, rfl, rfl⟩, hq, fun _ _ => rfl, rfl, rfl⟩
    · obtain ⟨a, t, tes, ha, hg, hs⟩ := Ux.progress_ok hq
      have hlt := Ux.step_work ha hs
      have hst : a.stays = true := UPAct.goes_stays hg
      have h1 : UPipe.step me u c limit s (.tx i a) = some ({ s with tx := fun j => if j = i then t else s.tx j, net := s.net ++ (t.wire.drop (s.tx i).wire.length).map (fun m => (i, m)) },
          tes.map (.tx i) ++ (t.wire.drop (s.tx i).wire.length).map (.left i)) := by
        simp only [UPipe.step, hst, if_true, hs, Option.map_some]
      obtain ⟨as, s', fs, g1, g2, g3, g4, g5, g6, g7⟩ := ih { s with tx := fun j => if j = i then t else s.tx j, net := s.net ++ (t.wire.drop (s.tx i).wire.length).map (fun m => (i, m)) } (by simp only [if_true]; omega)
      refine ⟨.tx i a :: as, s', _, UPipe.run_trans (UPipe.run_one h1) g1, ?_, Steady.append ⟨fun j => ?_, ?_, ?_⟩ g3, g4, ?_, g6, g7⟩
      · intro b hb
        rcases List.mem_cons.1 hb with rfl | hb
        · refine ⟨?_, _, rfl⟩
          cases a <;> simp_all [UPAct.Goes]
        · exact g2 b hb
      · rw [upTx_append, (up_left _ _ _).1, upTx_tx, List.append_nil]
        have := (Ux.internal_step ha hs).2.2.1
        split
        · exact this
        · rfl
      · rw [upArrived_append, (up_tx _ _).2.2.1, (up_left 0 _ _).2.2.2.1]; rfl
      · rw [upCopies_append, (up_tx _ _).2.2.2, (up_left 0 _ _).2.2.2.2]; rfl
      · intro j hj
        rw [g5 j hj]
        simp [hj]

theorem UPipe.all_sent : ∀ (l : List Nat) (s : UPipe),
    ∃ as s' fs, UPipe.Run me u c limit s as s' fs ∧ (∀ a ∈ as, a.Goes c.passive ∧ ∃ i x, a = .tx i x) ∧ Steady fs ∧ (∀ i ∈ l, (s'.tx i).Quiet) ∧ (∀ j, (s.tx j).Quiet → (s'.tx j).Quiet) ∧ s'.kq = s.kq ∧ s'.rm = s.rm := by
  intro l
  induction l with
  | nil => intro s; exact ⟨[], s, [], UPipe.Run.nil s, by simp, ⟨fun _ => rfl, rfl, rfl⟩, by simp, fun _ h => h, rfl, rfl⟩
  | cons i l ih =>
    intro s
    obtain ⟨as, s1, fs, g1, g2, g3, g4, g5, g6, g7⟩ := UPipe.sends_out (me := me) (u := u) (c := c) (limit := limit) i _ s (Nat.le_refl _)
    obtain ⟨bs, s2, gs, k1, k2, k3, k4, k5, k6, k7⟩ := ih s1
    refine ⟨as ++ bs, s2, fs ++ gs, UPipe.run_trans g1 k1, ?_, g3.append k3, ?_, ?_, k6.trans g6, k7.trans g7⟩
    · intro a ha
      rcases List.mem_append.1 ha with ha | ha
      · obtain ⟨x1, x2, x3⟩ := g2 a ha; exact ⟨x1, i, x2, x3⟩
      · exact k2 a ha
    · intro j hj
      rcases List.mem_cons.1 hj with rfl | hj
      · exact k5 _ g4
      · exact k4 j hj
    · intro j hj
      apply k5
      by_cases h : j = i
      · subst h; exact g4
      · rw [g5 j h]; exact hj

/-- The network brings these datagrams. -/
theorem UPipe.brings : ∀ (ks : List Nat) (s : UPipe), (∀ k ∈ ks, ∃ x, s.net[k]? = some x ∧ x.2.peer = me) →
    ∃ as s' fs, UPipe.Run me u c limit s as s' fs ∧ (∀ a ∈ as, ∃ k, a = .arrive k) ∧ upCopies fs = ks ∧ (∀ i, upTx i fs = []) ∧ upLeft fs = [] ∧ s'.tx = s.tx := by
  intro ks
  induction ks with
  | nil => intro s _; exact ⟨[], s, [], UPipe.Run.nil s, by simp, rfl, fun _ => rfl, rfl, rfl⟩
  | cons k ks ih =>
    intro s h
    obtain ⟨x, h1, h2⟩ := h k (by simp)
    have hs : s.step me u c limit (.arrive k) = some ({ s with kq := s.kq ++ [x.2.data] }, [.arrived (some k) x.2.data]) := by simp only [UPipe.step, h1, h2, if_true]
    obtain ⟨as, s', fs, g1, g2, g3, g4, g5, g6⟩ := ih { s with kq := s.kq ++ [x.2.data] } (fun k hk => h k (by simp [hk]))
    refine ⟨.arrive k :: as, s', _, UPipe.run_trans (UPipe.run_one hs) g1, ?_, ?_, ?_, ?_, g6⟩
    · intro a ha
      rcases List.mem_cons.1 ha with rfl | ha
      · exact ⟨k, rfl⟩
      · exact g2 a ha
    · rw [List.singleton_append]; simp [upCopies, g3]
    · intro i; rw [List.singleton_append]; simp [upTx, g4]
    · rw [List.singleton_append]; simp [upLeft, g5]

/-- The receiver gets everything out of the kernel. -/
theorem UPipe.receives (hlim : 0 < limit) : ∀ (n : Nat) (s : UPipe) (es : List UPEv), s.Good me u c limit es → s.kq.length = n →
    ∃ as s' fs, UPipe.Run me u c limit s as s' fs ∧ (∀ a ∈ as, a.Goes c.passive) ∧ (∀ i, upTx i fs = []) ∧ upLeft fs = [] ∧ upArrived fs = [] ∧ upCopies fs = [] ∧
      s'.tx = s.tx ∧ s'.kq = [] ∧ s'.rm.work c = 0 ∧ s'.rm.hp = .idle := by
  intro n
  induction n with
  | zero =>
    intro s es h hn
    obtain ⟨bs, r, fs, g1, g2, g3, g4, _⟩ := Rm.gets_reading hlim h.live h.keeps
    have hx := up_rx 0 fs
    exact ⟨_, _, _, UPipe.lift g1 g2, MAct.go_goes g2, fun i => (up_rx i fs).1, hx.2.2.1, hx.2.2.2.1, hx.2.2.2.2, rfl, List.length_eq_zero_iff.mp hn, g3, g4⟩
  | succ n ih =>
    intro s es h hn
    obtain ⟨bs, r, fs, g1, g2, g3, g4, g5⟩ := Rm.gets_reading hlim h.live h.keeps
    have hl := UPipe.lift (me := me) (u := u) g1 g2
    have h1 := UPipe.run_good h hl
    cases hk : s.kq with
    | nil => rw [hk] at hn; cases hn
    | cons d kq =>
      obtain ⟨raw', hd, hraw⟩ := Udp.datagram_shown h.raw d
      have hs : UPipe.step me u c limit { s with rm := r } .recv =
          some ({ s with rm := { r with out := false, reading := false, hp := .parsed, ec := false, temp := dgShown u.bufSize [d] }, kq := kq, raw := raw' }, [.rx (.received (dgShown u.bufSize [d]))]) := by
        simp only [UPipe.step, g5, g4, and_self, if_true, hk, hd, Rm.read_step _ g5 g4]
        rfl
      have h2 := UPipe.step_good h1 hs
      obtain ⟨as, s', gs, k1, k2, k3, k4, k5, k6, k7, k8, k9, k10⟩ := ih _ _ h2 (by rw [hk] at hn; simpa using hn)
      have hx := fun i => up_rx i fs
      refine ⟨_, s', _, UPipe.run_trans (UPipe.run_trans hl (UPipe.run_one hs)) k1, ?_, ?_, ?_, ?_, ?_, k7, k8, k9, k10⟩
      · intro a ha
        rcases List.mem_append.1 ha with ha | ha
        · rcases List.mem_append.1 ha with ha | ha
          · exact MAct.go_goes g2 a ha
          · rw [List.mem_singleton] at ha; subst ha; trivial
        · exact k2 a ha
      · intro i; rw [upTx_append, upTx_append, (hx i).1, k3]; rfl
      · rw [upLeft_append, upLeft_append, (hx 0).2.2.1, k4]; rfl
      · rw [upArrived_append, upArrived_append, (hx 0).2.2.2.1, k5]; rfl
      · rw [upCopies_append, upCopies_append, (hx 0).2.2.2.2, k6]; rfl

end
end StAsio
