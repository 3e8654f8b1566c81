import Verif.Callbacks.Lemmas
/-!
# Properties C125 to C129: callback subscriptions, the calls of the SDK, the executor
-/
namespace Verif.Callbacks

/-! ## C125: results reach their subscription -/

/-- With distinct tickets (they are random UUIDs), each subscription gets exactly the results that
concern it, in order, from its registration until it ends, for every order of the map. -/
theorem C125_stream_exact (as : List Act) (h : (tickets as).Nodup) (i : Nat) :
    (run as).log i = streamOf i 0 as :=
  (log_runFrom as St.init (good_init as h)).2.2 i (Nat.zero_le _)

/-- Every result is placed exactly once: in one channel, or with the kernel; whatever the tickets. -/
theorem C125_exactly_once (as : List Act) (r : NodeResult) :
    placed (run as) r = (arrived as).count r := by
  rw [run, placed_runFrom r as sane_init]
  simp [placed, St.init]

/-- Nothing is put into a channel that does not concern its subscription; whatever the tickets. -/
theorem C125_only_concerned (as : List Act) (i : Nat) (r : NodeResult) (h : r ∈ (run as).log i) :
    ∃ k, keyOf i 0 as = some k ∧ Concerns k r :=
  log_concerns h

/-- A result concerns exactly the subscriptions with the ticket it names that name no session or the session it names. -/
theorem C125_names (k : Key) (r : NodeResult) :
    Concerns k r ↔ ∃ t c, Names r t c ∧ k.ticket = t ∧ (k.cid = none ∨ k.cid = c) := by
  obtain ⟨kt, kc⟩ := k
  constructor
  · rintro ⟨⟨qt, qc⟩, hq, ht, hc⟩
    dsimp only at ht hc ⊢
    refine ⟨qt, qc, ?_, ht.symm, hc.imp_right Eq.symm⟩
    cases r <;> simp only [NodeResult.key, Option.some.injEq, Key.mk.injEq, Option.map_eq_some_iff, reduceCtorEq] at hq <;>
      first
      | (obtain ⟨rfl, rfl⟩ := hq; constructor)
      | (obtain ⟨x, rfl, rfl, rfl⟩ := hq; constructor)
  · rintro ⟨t, c, hn, ht, hc⟩
    exact ⟨⟨t, c⟩, by cases hn <;> rfl, ht.symm, hc.imp_right Eq.symm⟩

/-- The caller sees the results in the order in which they were sent, without a gap. -/
theorem C125_in_order (as : List Act) (i : Nat) : (run as).seen i <+: (run as).log i :=
  (sane_run as).pre i

/-- A poll takes the oldest result not yet taken, and no other caller loses anything. -/
theorem C125_poll (as : List Act) (i : Nat) (r : NodeResult) (rest : List NodeResult)
    (h : (run as).log i = (run as).seen i ++ r :: rest) :
    (run (as ++ [.poll i])).seen i = (run as).seen i ++ [r] ∧
    ∀ j, j ≠ i → (run (as ++ [.poll i])).seen j = (run as).seen j := by
  rw [run_append]
  simp only [runFrom, List.foldl_cons, List.foldl_nil, step, poll]
  have : ((run as).log i)[((run as).seen i).length]? = some r := by
    rw [h]; simp
  rw [this]
  exact ⟨upd_same _ _ _, fun j hj => upd_ne _ _ hj⟩

/-- The subscription is registered before the request is sent: an answer of the right key is not
missed however soon it comes. -/
theorem C125_no_answer_missed (pre mid post : List Act) (k : Key) (r : NodeResult) (c : Nat)
    (h : (tickets (pre ++ .subscribe k :: (mid ++ .result r c :: post))).Nodup)
    (hc : Concerns k r) (h1 : Act.drop (tickets pre).length ∉ mid) (h2 : Act.unlisten k ∉ mid) :
    r ∈ (run (pre ++ .subscribe k :: (mid ++ .result r c :: post))).log (tickets pre).length := by
  rw [C125_stream_exact _ h, streamOf_append _ _ _ _ 0 (by omega)]
  exact mem_window hc post mid h1 h2

/-- A request that could not be sent leaves the map as it was, if nobody used its key. -/
theorem C125_failed_send (s : St) (r : Request) (t : Nat)
    (h : ∀ e ∈ s.map, e.1 ≠ r.key t) : (sendSubscribed s r t false).map = s.map := by
  have hp : s.map.any (fun e => e.1 == r.key t) = false := by
    rw [List.any_eq_false]
    intro e he
    simpa using h e he
  have hf : s.map.filter (fun e => e.1 != r.key t) = s.map := by
    rw [List.filter_eq_self]
    intro e he
    simpa using h e he
  simp only [sendSubscribed, register, hp, upd_same, removeListener, dropSub, eraseKey, hf]
  simp [hf]

/-- Two subscriptions with the same ticket, one of them without a session: the order of the map
decides which of them gets a result. -/
theorem C125_counterexample_same_ticket :
    let as := fun c => [Act.subscribe ⟨7, none⟩, .subscribe ⟨7, some 5⟩,
      .result (.rekeyResult 7 5 true) c]
    ((run (as 0)).log 0 = [] ∧ (run (as 0)).log 1 = [.rekeyResult 7 5 true]) ∧
    ((run (as 1)).log 0 = [.rekeyResult 7 5 true] ∧ (run (as 1)).log 1 = []) := by
  decide

/-- Results that had arrived when a subscription is dropped are gone: nobody gets them, not even
the kernel. -/
theorem C125_counterexample_dropped_unread :
    let s := run [.subscribe ⟨7, some 5⟩, .result (.rekeyResult 7 5 true) 0, .drop 0]
    s.seen 0 = [] ∧ s.rx 0 = false ∧ s.deflt = [] := by
  decide

example : (tickets [.subscribe ⟨7, none⟩, .subscribe ⟨8, some 5⟩, .result (.sessionList 7) 3,
    .result (.rekeyResult 8 5 true) 4, .result (.rekeyResult 8 6 true) 4, .drop 1,
    .result (.rekeyResult 8 5 false) 0, .poll 0]).Nodup ∧
    let s := run [.subscribe ⟨7, none⟩, .subscribe ⟨8, some 5⟩, .result (.sessionList 7) 3,
      .result (.rekeyResult 8 5 true) 4, .result (.rekeyResult 8 6 true) 4, .drop 1,
      .result (.rekeyResult 8 5 false) 0, .poll 0]
    s.log 0 = [.sessionList 7] ∧ s.seen 0 = [.sessionList 7] ∧ s.log 1 = [.rekeyResult 8 5 true] ∧
    s.deflt = [.rekeyResult 8 6 true, .rekeyResult 8 5 false] := by
  decide

/-! ## C126: the failure of a request reaches the caller

Full statement (false): whenever the node reports a failure for a request, the subscription of the
request gets it, so that the call ends. It holds for requests that name no session only. -/

/-- Whatever the node itself reports for a failing request that names a session does not concern
the subscription of that request. -/
theorem C126_counterexample_report_unmatched (r : Request) (t c : Nat) (hc : r.cid = some c)
    (fails : Bool) (e : NodeResult) (he : nodeReport r t fails = some e) :
    ¬ Concerns (r.key t) e := by
  have : e = sendError t := by
    unfold nodeReport at he
    split at he
    · exact (Option.some.inj he).symm
    · cases r <;> simp_all [Request.cid]
  subst this
  rintro ⟨q, hq, _, h⟩
  simp only [sendError, NodeResult.key, Option.map_some, Option.some.injEq] at hq
  subst hq
  simp [Request.key, hc] at h

/-- Hence the call waits for ever: in no run in which the results under its ticket are reports
without a session (`send_error`, a rejected message) does it get anything. -/
theorem C126_counterexample_error_lost (call : Call) (c t : Nat) (hc : call.request.cid = some c)
    (as : List Act) (i : Nat) (hk : keyOf i 0 as = some (call.request.key t))
    (hr : ∀ r ∈ arrived as, ∀ q, r.key = some q → q.ticket = t → q.cid = none) :
    (run as).log i = [] ∧ call.drive ((run as).log i) = .wait := by
  have : (run as).log i = [] := by
    rw [List.eq_nil_iff_forall_not_mem]
    intro r hm
    obtain ⟨k, h1, q, hq, ht, hcid⟩ := C125_only_concerned as i r hm
    rw [hk, Option.some.injEq] at h1
    subst h1
    have hcount : 0 < (arrived as).count r := by
      rw [← C125_exactly_once as r]
      have hlt : i < (run as).next := by
        rcases Nat.lt_or_ge i (run as).next with h | h
        · exact h
        · rw [((sane_run as).empty i h).1] at hm; simp at hm
      have h2 : 0 < ((run as).log i).count r := List.count_pos_iff.2 hm
      have h3 : ((run as).log i).count r ∈
          (List.range (run as).next).map (fun i => ((run as).log i).count r) :=
        List.mem_map.2 ⟨i, List.mem_range.2 hlt, rfl⟩
      have := le_sum_of_mem h3
      simp only [placed]
      omega
    have h4 := hr r (List.count_pos_iff.1 hcount) q hq (by simpa [Request.key] using ht)
    rw [h4] at hcid
    simp [Request.key, hc] at hcid
  rw [this]
  exact ⟨rfl, rfl⟩

/-- The report is given to the handler of the kernel instead. -/
theorem C126_counterexample_report_to_kernel (call : Call) (c t : Nat)
    (hc : call.request.cid = some c) (choice : Nat) :
    (run [.subscribe (call.request.key t), .result (sendError t) choice]).deflt = [sendError t] := by
  have hf : takes (call.request.key t) ⟨t, none⟩ = false := by
    simp [takes, Request.key, hc]
  simp [run, runFrom, step, St.init, register, eraseKey, deliver, sendError, NodeResult.key, search,
    hf]

/-- A call that names no session ends when the node reports a failure while it is waiting. -/
theorem C126_error_reaches_partial (call : Call) (hc : call.request.cid = none) (t : Nat)
    (pre mid post : List Act) (ch : Nat)
    (h : (tickets (pre ++ .subscribe (call.request.key t) ::
      (mid ++ .result (sendError t) ch :: post))).Nodup)
    (h1 : Act.drop (tickets pre).length ∉ mid)
    (h2 : Act.unlisten (call.request.key t) ∉ mid) :
    call.drive ((run (pre ++ .subscribe (call.request.key t) ::
      (mid ++ .result (sendError t) ch :: post))).log (tickets pre).length) ≠ .wait := by
  have hm := C125_no_answer_missed pre mid post (call.request.key t) (sendError t) ch h
    ⟨⟨t, none⟩, rfl, rfl, .inl hc⟩ h1 h2
  intro hw
  have := drive_wait.1 hw _ hm
  cases call <;> simp_all [Call.request, Request.cid, Call.onResult, Call.checksErrors, sendError,
    NodeResult.isErr, Call.body]

/-- An error under the ticket and the session of the request ends the call, for the calls that
look at errors. -/
theorem C126_error_with_session_partial (call : Call) (he : call.checksErrors = true) (t : Nat)
    (pre mid post : List Act) (ch : Nat)
    (h : (tickets (pre ++ .subscribe (call.request.key t) ::
      (mid ++ .result (.internalError (some t) call.request.cid) ch :: post))).Nodup)
    (h1 : Act.drop (tickets pre).length ∉ mid)
    (h2 : Act.unlisten (call.request.key t) ∉ mid) :
    call.drive ((run (pre ++ .subscribe (call.request.key t) ::
      (mid ++ .result (.internalError (some t) call.request.cid) ch :: post))).log
        (tickets pre).length) ≠ .wait := by
  have hm := C125_no_answer_missed pre mid post (call.request.key t)
    (.internalError (some t) call.request.cid) ch h
    ⟨⟨t, call.request.cid⟩, rfl, rfl, .inr rfl⟩ h1 h2
  intro hw
  have := drive_wait.1 hw _ hm
  simp [Call.onResult, he, NodeResult.isErr] at this

/-- All calls of the SDK but four name a session, and only one of these has a limit of time. -/
theorem C126_counterexample_calls (call : Call) :
    (call.request.cid = none ↔ call = .register ∨ call = .sessions ∨ call = .listSessions ∨
      ∃ a, call = .connect a ∧ ∀ c, a ≠ .byCid c) ∧
    (call.timed = true ↔ ∃ c, call = .connectPeer c) ∧
    ∀ c, call ∈ [.localGroupPeers c, .mutualPeers c, .sendFile c, .revfsPull c, .revfsDelete c, .connectPeer c, .registerPeer c,
      .deregisterPeer c, .deregister c, .disconnectPeer c, .disconnect c, .createGroup c, .listGroups c, .rekey c,
      .connect (.byCid c)] → call.request.cid = some c := by
  cases call with
  | connect a => cases a <;> simp [Call.request, Request.cid, Call.timed, Auth.cid]
  | _ => simp [Call.request, Request.cid, Call.timed]

example : keyOf 0 0 [.subscribe ((Call.disconnect 5).request.key 7), .result (sendError 7) 0,
      .result (.rejected 7) 0] = some ((Call.disconnect 5).request.key 7) ∧
    (∀ r ∈ arrived [.subscribe ((Call.disconnect 5).request.key 7), .result (sendError 7) 0,
      .result (.rejected 7) 0], ∀ q, r.key = some q → q.ticket = 7 → q.cid = none) := by
  refine ⟨by decide, ?_⟩
  simp [arrived, sendError, NodeResult.key]

example : (Call.connect (.byUsername 3)).drive
    ((run [.subscribe ((Call.connect (.byUsername 3)).request.key 7),
      .result (sendError 7) 0]).log 0) = .err := by
  decide

/-! ## C127: a registration does not disturb the others

Full statement (false): `register_stream` either fails and changes nothing, or adds a listener. -/

/-- A registration under a ticket that no subscription has used succeeds, and every other listener
stays. -/
theorem C127_fresh_registration_partial (as : List Act) (k : Key) (h : k.ticket ∉ tickets as) :
    (run (as ++ [.subscribe k])).sub (tickets as).length = some k ∧
    (run (as ++ [.subscribe k])).rx (tickets as).length = true ∧
    ∀ e, e ∈ (run as).map → e ∈ (run (as ++ [.subscribe k])).map := by
  have hp : (run as).map.any (fun e => e.1 == k) = false := by
    rw [List.any_eq_false]
    rintro ⟨q, i⟩ he hq
    simp only [beq_iff_eq] at hq
    subst hq
    exact h (keyOf_mem as i 0 q (map_keyed he))
  rw [run_append]
  simp only [runFrom, List.foldl_cons, List.foldl_nil, step, register, hp, next_run, upd_same]
  refine ⟨by simp, by simp, ?_⟩
  rintro ⟨q, i⟩ he
  rw [List.mem_cons, mem_eraseKey]
  refine .inr ⟨he, ?_⟩
  rintro rfl
  exact h (keyOf_mem as i 0 _ (map_keyed he))

/-- A registration under the key of a listener reports an error. -/
theorem C127_second_registration_refused (as : List Act) (k : Key) (i : Nat)
    (h : (k, i) ∈ (run as).map) :
    (run (as ++ [.subscribe k])).sub (tickets as).length = none := by
  have hp : (run as).map.any (fun e => e.1 == k) = true := by
    rw [List.any_eq_true]
    exact ⟨(k, i), h, by simp⟩
  rw [run_append]
  simp [runFrom, step, register, hp, next_run, upd_same]

/-- But it has replaced the listener: whatever follows, the first subscription gets nothing more. -/
theorem C127_counterexample_silenced (as post : List Act) (k : Key) (i : Nat)
    (h : keyOf i 0 as = some k) (hi : i < (tickets as).length) :
    (run (as ++ .subscribe k :: post)).log i = (run as).log i := by
  rw [run_append, runFrom_cons]
  rw [silent post]
  · rfl
  · simp only [step, register, next_run]; omega
  · intro q hq
    simp only [step, register, List.mem_cons, mem_eraseKey, Prod.mk.injEq, next_run] at hq
    rcases hq with h1 | h1
    · omega
    · have := map_keyed h1.1
      rw [h, Option.some.injEq] at this
      exact h1.2 this.symm

/-- The drop of a subscription ends only that subscription, when tickets are distinct. -/
theorem C127_drop_is_local_partial (as : List Act) (h : (tickets as).Nodup) (i j : Nat) (k : Key)
    (hk : (k, j) ∈ (run as).map) (hne : j ≠ i) : (k, j) ∈ (run (as ++ [.drop i])).map := by
  have hg : ∀ (bs : List Act) (s : St), Good s (bs ++ []) → Good (runFrom s bs) [] := by
    intro bs
    induction bs with
    | nil => intro s h; exact h
    | cons b bs ih => intro s h; exact ih _ (good_step h)
  have hG : Good (run as) [] := hg as St.init (by rw [List.append_nil]; exact good_init as h)
  rw [run_append]
  simp only [runFrom, List.foldl_cons, List.foldl_nil, step, dropSub]
  split
  · exact hk
  · rename_i q hq
    simp only [removeListener, mem_eraseKey]
    refine ⟨hk, ?_⟩
    rintro rfl
    exact hne (hG.apart j i _ _ (hG.live _ j hk).2 hq rfl)

example : keyOf 0 0 [.subscribe ⟨7, some 5⟩] = some ⟨7, some 5⟩ ∧
    let s := run ([.subscribe ⟨7, some 5⟩] ++ .subscribe ⟨7, some 5⟩ ::
      [.result (.rekeyResult 7 5 true) 0])
    s.log 0 = [] ∧ s.deflt = [.rekeyResult 7 5 true] ∧ s.sub 0 = some ⟨7, some 5⟩ := by
  decide

/-! ## C128: what a call makes of its results

Full statement (false): a call ends at every result that reports an error. -/

/-- All calls but two end with an error at a result that reports one. -/
theorem C128_errors_end_partial (call : Call) (r : NodeResult) (hr : r.isErr = true)
    (h1 : ∀ c, call ≠ .createGroup c) (h2 : ∀ c, call ≠ .rekey c) : call.onResult r = .err := by
  cases hc : call.checksErrors with
  | true => simp [Call.onResult, hr, hc]
  | false =>
      rcases not_checks hc with ⟨c, rfl⟩ | ⟨c, rfl⟩ | rfl
      · exact absurd rfl (h1 c)
      · exact absurd rfl (h2 c)
      · cases r <;> simp_all [Call.onResult, Call.checksErrors, NodeResult.isErr, Call.body]

/-- `create_group` and `rekey` go on waiting, whatever errors they are given; `create_group` also
when the server answers that it has not made the group. -/
theorem C128_counterexample_errors_ignored (c : Nat) (l : List NodeResult)
    (h : ∀ r ∈ l, r.isErr = true) :
    (Call.createGroup c).drive l = .wait ∧ (Call.rekey c).drive l = .wait := by
  rw [drive_wait, drive_wait]
  constructor <;>
  · intro r hr
    have := h r hr
    cases r <;> simp_all [Call.onResult, Call.checksErrors, NodeResult.isErr, Call.body]

theorem C128_counterexample_refused_group (c : Nat) (l : List NodeResult)
    (h : ∀ r ∈ l, ∃ t d tag, r = .groupEvent t d .createRefused tag) :
    (Call.createGroup c).drive l = .wait := by
  rw [drive_wait]
  intro r hr
  obtain ⟨t, d, tag, rfl⟩ := h r hr
  rfl

/-- A call that returns a success has been given, for its session and its ticket, a result that is
no error. -/
theorem C128_success_is_answered (call : Call) (c t : Nat) (hc : call.request.cid = some c)
    (as : List Act) (i : Nat) (hk : keyOf i 0 as = some (call.request.key t))
    (hok : call.drive ((run as).log i) = .ok) :
    ∃ r ∈ (run as).log i, r.key = some ⟨t, some c⟩ ∧ r.isErr = false := by
  have key : ∀ l : List NodeResult, call.drive l = .ok → ∃ r ∈ l, call.onResult r = .ok := by
    intro l
    induction l with
    | nil => intro h; simp [Call.drive] at h
    | cons r l ih =>
        intro h
        simp only [Call.drive] at h
        cases hv : call.onResult r with
        | wait =>
            rw [hv] at h
            obtain ⟨q, hq, hq2⟩ := ih h
            exact ⟨q, List.mem_cons_of_mem _ hq, hq2⟩
        | ok => exact ⟨r, List.mem_cons_self, hv⟩
        | err => rw [hv] at h; simp at h
  obtain ⟨r, hr, hv⟩ := key _ hok
  refine ⟨r, hr, ?_, ?_⟩
  · obtain ⟨k, h1, q, hq, ht, hcid⟩ := C125_only_concerned as i r hr
    rw [hk, Option.some.injEq] at h1
    subst h1
    rw [hq]
    simp only [Request.key, hc, reduceCtorEq, false_or] at hcid ht
    rw [← ht, ← hcid]
  · exact ok_not_err hv

/-- A success is the result that the request asks for, and no other. -/
theorem C128_success_kinds (call : Call) (r : NodeResult) (h : call.onResult r = .ok) :
    (call = .register → ∃ t c, r = .registerOkay t c) ∧
    (∀ a, call = .connect a → ∃ t c, r = .connectSuccess t c) ∧
    (∀ c, call = .rekey c → ∃ t d, r = .rekeyResult t d true) ∧
    (∀ c, call = .deregister c → ∃ t d, r = .deregistration t d true) ∧
    (∀ c, call = .disconnect c → ∃ t d, r = .disconnect t d true) ∧
    (∀ c, call = .createGroup c → ∃ t d, r = .groupCreated t d) ∧
    (∀ c, call = .connectPeer c → ∃ t d, r = .peerChannel t d) ∧
    (∀ c, call = .revfsDelete c → ∃ t d, r = .revfs t d false) := by
  have hb : call.body r = .ok := by
    unfold Call.onResult at h
    split at h
    · simp at h
    · exact h
  clear h
  cases call <;> simp only [reduceCtorEq, false_implies, implies_true, and_true, true_and,
    Call.connect.injEq, Call.rekey.injEq, Call.deregister.injEq, Call.disconnect.injEq,
    Call.createGroup.injEq, Call.connectPeer.injEq, Call.revfsDelete.injEq] <;>
    cases r <;> simp_all [Call.body]
  split at hb <;> simp_all

/-- A call returns a success at the result that it asks for, and at no other. -/
theorem C128_success_exactly (call : Call) (r : NodeResult) : call.onResult r = .ok ↔ Answers call r := by
  constructor
  · intro h
    have hb : call.body r = .ok := by
      unfold Call.onResult at h
      split at h
      · simp at h
      · exact h
    clear h
    revert hb
    cases call <;> cases r <;> simp only [Call.body, Answers, reduceCtorEq, false_implies, exists_const,
      NodeResult.registerOkay.injEq] <;> (try split) <;> simp_all
    all_goals exact ⟨_, _, _, ⟨rfl, rfl, rfl⟩, by simp⟩
  · intro h
    cases call <;> simp only [Answers] at h
    case registerPeer =>
      obtain ⟨t, c, a, g, rfl, ha⟩ := h
      cases a <;> first | rfl | exact absurd rfl ha
    all_goals (first | obtain ⟨t, c, g, rfl⟩ := h | obtain ⟨t, c, rfl⟩ := h | obtain ⟨t, rfl⟩ := h) <;> rfl

/-- Where the results have a refusal of what a call asks for, the call ends with an error at it. -/
theorem C128_refusal_ends (call : Call) (r : NodeResult) (h : Refuses call r) : call.onResult r = .err := by
  cases call <;> simp only [Refuses] at h
  case connectPeer =>
    obtain ⟨t, c, a, g, rfl, rfl | rfl⟩ := h <;> rfl
  all_goals (first | obtain ⟨t, c, g, rfl⟩ := h | obtain ⟨t, c, rfl⟩ := h) <;> rfl

/-- When a call ends with an error: at a refusal, at a failure (but for `create_group` and `rekey`), and, for the calls
that are not patient, at anything they did not ask for. -/
theorem C128_error_exactly (call : Call) (r : NodeResult) :
    call.onResult r = .err ↔ Refuses call r ∨ (Failure r ∧ (∀ c, call ≠ .createGroup c) ∧ ∀ c, call ≠ .rekey c) ∨
      (Impatient call r ∧ ¬ Answers call r) := by
  have hf : Failure r ↔ r.isErr = true := by
    constructor
    · intro h; cases h <;> rfl
    · intro h
      cases r <;> simp only [NodeResult.isErr, reduceCtorEq, Bool.false_eq_true] at h <;> try constructor
      rename_i e _
      cases e <;> simp at h
      constructor
  rw [hf, ← C128_success_exactly]
  cases r with
  | peerEvent t c e g =>
    cases e with
    | postConnect a =>
      rcases a with _ | (_ | _ | _ | _) <;> cases call <;>
        simp [Call.onResult, Call.checksErrors, NodeResult.isErr, Call.body, Refuses, Impatient]
      all_goals exact ⟨_, _, _, ⟨rfl, rfl, rfl⟩, by simp⟩
    | postRegister a =>
      rcases a with _ | (_ | _ | _ | _) <;> cases call <;>
        simp [Call.onResult, Call.checksErrors, NodeResult.isErr, Call.body, Refuses, Impatient]
    | registeredPeers b =>
      cases b <;> cases call <;> simp [Call.onResult, Call.checksErrors, NodeResult.isErr, Call.body, Refuses, Impatient]
    | mutuals b =>
      cases b <;> cases call <;> simp [Call.onResult, Call.checksErrors, NodeResult.isErr, Call.body, Refuses, Impatient]
    | disconnect b =>
      cases b <;> cases call <;> simp [Call.onResult, Call.checksErrors, NodeResult.isErr, Call.body, Refuses, Impatient]
    | _ => cases call <;> simp [Call.onResult, Call.checksErrors, NodeResult.isErr, Call.body, Refuses, Impatient]
  | groupEvent t c e g =>
    cases e <;> cases call <;> simp [Call.onResult, Call.checksErrors, NodeResult.isErr, Call.body, Refuses, Impatient]
  | deregistration t c b =>
    cases b <;> cases call <;> simp [Call.onResult, Call.checksErrors, NodeResult.isErr, Call.body, Refuses, Impatient]
  | disconnect t c b =>
    cases b <;> cases call <;> simp [Call.onResult, Call.checksErrors, NodeResult.isErr, Call.body, Refuses, Impatient]
  | rekeyResult t c b =>
    cases b <;> cases call <;> simp [Call.onResult, Call.checksErrors, NodeResult.isErr, Call.body, Refuses, Impatient]
  | revfs t c b =>
    cases b <;> cases call <;> simp [Call.onResult, Call.checksErrors, NodeResult.isErr, Call.body, Refuses, Impatient]
  | _ => cases call <;> simp [Call.onResult, Call.checksErrors, NodeResult.isErr, Call.body, Refuses, Impatient]

/-- The first answer, with nothing before it that ends the call, is a success. -/
theorem C128_answered (call : Call) (pre post : List NodeResult) (r : NodeResult) (h : ∀ x ∈ pre, call.onResult x = .wait)
    (hr : Answers call r) : call.drive (pre ++ r :: post) = .ok := by
  induction pre with
  | nil => simp [Call.drive, (C128_success_exactly call r).2 hr]
  | cons x pre ih =>
    simp only [List.cons_append, Call.drive, h x (by simp)]
    exact ih fun y hy => h y (by simp [hy])

example : (Call.disconnect 5).drive ((run [.subscribe ((Call.disconnect 5).request.key 7),
    .result (.disconnect 7 (some 5) true) 0]).log 0) = .ok := by
  decide

/-! ## C129: the executor keeps handing results over

Full statement (false): a result in the queue is always handed over in the end, whatever the
handlers of the kernel wait for. It holds when the number of handlers is not limited. -/

/-- Without a limit the next result is always taken, whatever the handlers in progress do. -/
theorem C129_unlimited_takes_partial (e : Exec) (limit : Option Nat) (h : limit = none ∨ limit = some 0)
    (r : NodeResult) (q : List NodeResult) (hq : e.queue = r :: q) (job : Job) (c : Nat) :
    (estep limit e (.take job c)).queue = q ∧
    ((estep limit e (.take job c)).st.log = (deliver e.st r c).log ∧
     (estep limit e (.take job c)).st.deflt = (deliver e.st r c).deflt) := by
  have hr : room limit e.running.length = true := by
    rcases h with rfl | rfl <;> simp [room]
  simp only [estep, hq, hr, if_true]
  split
  · exact ⟨rfl, rfl, rfl⟩
  · cases job <;> exact ⟨rfl, rfl, rfl⟩

/-- With a limit, the same holds while fewer handlers than that are in progress. -/
theorem C129_below_limit_takes_partial (e : Exec) (l : Nat) (h : e.running.length < l)
    (r : NodeResult) (q : List NodeResult) (hq : e.queue = r :: q) (job : Job) (c : Nat) :
    (estep (some l) e (.take job c)).queue = q := by
  have hr : room (some l) e.running.length = true := by simp [room, h]
  simp only [estep, hq, hr, if_true]
  split
  · rfl
  · cases job <;> rfl

/-- Never more handlers at once than the limit. -/
theorem C129_limit_kept (l : Nat) (hl : 0 < l) (as : List EAct) : ∀ e : Exec,
    e.running.length ≤ l → (erun (some l) e as).running.length ≤ l := by
  induction as with
  | nil => intro e h; exact h
  | cons a as ih =>
      intro e h
      apply ih
      cases a with
      | push r => exact h
      | take job c =>
          simp only [estep]
          split
          · exact h
          · split
            · rename_i hr
              have : e.running.length < l := by
                simp only [room, Bool.or_eq_true, beq_iff_eq, decide_eq_true_eq] at hr
                omega
              split
              · exact h
              · split
                · exact h
                · simp only [List.length_append, List.length_singleton]; omega
            · exact h
      | resume i =>
          simp only [estep]
          split
          · exact h
          · split
            · exact h
            · exact Nat.le_trans (List.length_eraseIdx_le _ _) h

/-- Everything sent to the handlers in progress leaves them waiting. -/
def Stalled (e : Exec) : Prop :=
  (∀ p ∈ e.running, p.1.drive (e.st.log p.2) = .wait) ∧ ∀ i, e.st.seen i <+: e.st.log i

/-- When as many handlers as the limit wait for an answer that has not been handed over, nothing is
handed over any more: whatever arrives, the answers included, stays in the queue. -/
theorem C129_counterexample_deadlock (l : Nat) (hl : 0 < l) (as : List EAct) : ∀ e : Exec,
    e.running.length = l → Stalled e →
    (erun (some l) e as).running = e.running ∧ (erun (some l) e as).st.log = e.st.log ∧
    (erun (some l) e as).st.deflt = e.st.deflt ∧ e.queue <+: (erun (some l) e as).queue := by
  induction as with
  | nil => intro e _ _; exact ⟨rfl, rfl, rfl, List.prefix_refl _⟩
  | cons a as ih =>
      intro e hn hs
      have key : ∀ e' : Exec, estep (some l) e a = e' → e'.running = e.running →
          e'.st.log = e.st.log → e'.st.deflt = e.st.deflt → e.queue <+: e'.queue →
          (∀ i, e'.st.seen i <+: e'.st.log i) →
          (erun (some l) e (a :: as)).running = e.running ∧
          (erun (some l) e (a :: as)).st.log = e.st.log ∧
          (erun (some l) e (a :: as)).st.deflt = e.st.deflt ∧
          e.queue <+: (erun (some l) e (a :: as)).queue := by
        intro e' he h1 h2 h3 h4 h5
        have hrun : erun (some l) e (a :: as) = erun (some l) e' as := by
          simp only [erun, List.foldl_cons, he]
        rw [hrun]
        have := ih e' (by rw [h1]; exact hn) ⟨by rw [h1, h2]; exact hs.1, h5⟩
        rw [h1, h2, h3] at this
        exact ⟨this.1, this.2.1, this.2.2.1, List.IsPrefix.trans h4 this.2.2.2⟩
      cases a with
      | push r => exact key _ rfl rfl rfl rfl (List.prefix_append _ _) hs.2
      | take job c =>
          have : estep (some l) e (.take job c) = e := by
            simp only [estep]
            split
            · rfl
            · have hr : room (some l) e.running.length = false := by
                simp [room, hn]; omega
              rw [hr]
              simp
          exact key e this rfl rfl rfl (List.prefix_refl _) hs.2
      | resume i =>
          cases hi : e.running[i]? with
          | none =>
              have : estep (some l) e (.resume i) = e := by simp only [estep, hi]
              exact key e this rfl rfl rfl (List.prefix_refl _) hs.2
          | some p =>
              obtain ⟨c, n⟩ := p
              have hw := hs.1 (c, n) (List.mem_of_getElem? hi)
              have hv : ∃ v, poll e.st n = { e.st with seen := v } ∧
                  ∀ i, v i <+: e.st.log i := by
                simp only [poll]
                split
                · rename_i r hr
                  refine ⟨_, rfl, ?_⟩
                  intro j
                  by_cases hj : j = n
                  · subst hj
                    rw [upd_same]
                    exact prefix_snoc_get (hs.2 j) hr
                  · rw [upd_ne _ _ hj]; exact hs.2 j
                · exact ⟨e.st.seen, rfl, hs.2⟩
              obtain ⟨v, hv, hp⟩ := hv
              have hwait : c.drive (v n) = .wait := by
                rw [drive_wait] at hw ⊢
                intro r hr
                exact hw r (List.IsPrefix.subset (hp n) hr)
              have : estep (some l) e (.resume i) = { e with st := { e.st with seen := v } } := by
                simp only [estep, hi, hv, hwait, if_true]
              exact key _ this rfl rfl rfl (List.prefix_refl _) hp

/-- One handler that makes any call of the SDK is enough when the limit is one: the answer is never
handed over. -/
theorem C129_counterexample_one_handler (call : Call) (t : Nat) (as : List EAct) :
    let e := erun (some 1) ⟨[], [], St.init⟩ ([.push (.mailbox none 5), .take (.call call t) 0] ++ as)
    e.running = [(call, 0)] ∧ e.st.log 0 = [] := by
  have h0 : erun (some 1) ⟨[], [], St.init⟩ [.push (.mailbox none 5), .take (.call call t) 0] =
      ⟨[], [(call, 0)], register { St.init with deflt := [.mailbox none 5] } (call.request.key t)⟩ := by
    simp [erun, estep, room, deliver, NodeResult.key, St.init]
  have h1 : erun (some 1) ⟨[], [], St.init⟩ ([.push (.mailbox none 5), .take (.call call t) 0] ++ as) =
      erun (some 1) (erun (some 1) ⟨[], [], St.init⟩
        [.push (.mailbox none 5), .take (.call call t) 0]) as := by
    simp [erun]
  simp only [h1, h0]
  have := C129_counterexample_deadlock 1 (by omega) as
    ⟨[], [(call, 0)], register { St.init with deflt := [.mailbox none 5] } (call.request.key t)⟩
    rfl ⟨by simp [register, St.init, Call.drive], by simp [register, St.init]⟩
  exact ⟨this.1, by rw [this.2.1]; rfl⟩

/-- Without a limit the same handler gets its answer. -/
example : (erun none ⟨[], [], St.init⟩ [.push (.mailbox none 5), .take (.call (.disconnect 5) 7) 0,
    .push (.disconnect 7 (some 5) true), .take .quick 0, .resume 0]).running = [] := by
  decide

end Verif.Callbacks
