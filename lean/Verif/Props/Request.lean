import Verif.Proofs.RequestInv
/-!
C28-C33: the life of a request under every interleaving of every number of goroutines, with arbitrary bookmarks.
A schedule is a list of `Choice`s; `run (init id msg resp) cs = some s` says that `s` is reachable by `cs`.
-/
namespace Verif.Props
open Verif.Request

/-- C28. However many goroutines use the request, whatever its bookmarks and its Responder do to it, the Responder
is called at most once. -/
theorem C28_at_most_one_response (id msg : UInt32) (resp : Option Resp) (cs : List Choice) (s : St)
    (h : run (init id msg resp) cs = some s) : deliveries s.d.log ≤ 1 := by
  have hi := inv_reach (ok := fun _ => True) rules1 (by simp [init, Q1, deliveries]) (by simp) h
  refine inv_any hi (P := fun d => deliveries d.log ≤ 1) ?_ ?_
  · intro h; grind [Q1]
  · intro p hp; cases p <;> simp only [H1, Q1] at hp <;> omega

theorem everywhere_split {Q l pre e post} (h : Everywhere Q l) (hl : l = pre ++ e :: post) : Q e post := by
  subst hl
  induction pre with
  | nil => exact h.1
  | cons a pre ih => exact ih h.2

theorem deliveries_split {pre r post} : deliveries (pre ++ .delivered r :: post) ≠ 0 := by
  induction pre with
  | nil => simp [deliveries]
  | cons e l ih => cases e <;> simp only [List.cons_append, deliveries] <;> omega

/-- C28. After the Responder was called nothing happens to the request any more: no answering call is accepted, no
bookmark is chained or notified, the Responder is not called again. -/
theorem C28_nothing_after (id msg : UInt32) (resp : Option Resp) (cs : List Choice) (s : St)
    (h : run (init id msg resp) cs = some s) (r : Resp) (newer older : List Ev)
    (hl : s.d.log = newer ++ .delivered r :: older) :
    ∀ e ∈ newer, (∀ k c b, e ≠ .accepted k c b) ∧ (∀ b r, e ≠ .notified b r) ∧ (∀ b, e ≠ .chained b) ∧
      ∀ r, e ≠ .delivered r := by
  have hi := inv_reach (ok := fun _ => True) rules8 ⟨by simp [init, Q1, deliveries], trivial⟩ (by simp) h
  have he := inv_any hi (P := fun d => Everywhere Ev8 d.log) (fun h => h.2) (fun p hp => hp.2)
  intro e hm
  obtain ⟨n1, n2, rfl⟩ := List.append_of_mem hm
  have := everywhere_split he (pre := n1) (e := e) (post := n2 ++ .delivered r :: older) (by rw [hl]; simp)
  have hd := deliveries_split (pre := n2) (r := r) (post := older)
  cases e <;> simp_all [Ev8]

/-- Two goroutines fail the request at the same time; one response is delivered, and it is delivered. -/
example : (run (init 7 1 none)
    [.call 0 .setPending, .go 0, .call 1 (.fail 0xff03), .call 2 (.fail 0xfe03), .go 1, .go 1, .go 1, .go 1,
     .responder 1 [], .go 1, .go 1, .go 1, .go 2, .go 2, .go 2]).map (fun s => s.d.log) =
    some [.returned 2 (.fail 0xfe03), .ignored (.fail 0xfe03), .returned 1 (.fail 0xff03), .delivered ⟨7, 1, 0xff03, none⟩,
      .accepted false 0xff03 none, .returned 0 .setPending, .sent] := by decide +kernel

/-- What C29 asks of a response `r` handed to a bookmark or to the Responder when the history was `l`, in a run by the
schedule `cs`: the request's own `Id` and `Msg`; code and body are those of the answering call accepted last, which is
either a `RespondBytes` made after the request was claimed, or a failure call, which has no body. -/
def ProperResponse (cs : List Choice) (id msg : UInt32) (r : Resp) (l : List Ev) : Prop :=
  r.id = id ∧ r.msg = msg ∧
  ((lastAccepted l = some (true, r.code, r.body) ∧ (∃ t, Ev.claimed t ∈ l) ∧
      ∃ t, Choice.call t (.respond r.code r.body) ∈ cs) ∨
   (lastAccepted l = some (false, r.code, none) ∧ r.body = none ∧ ∃ t, Choice.call t (.fail r.code) ∈ cs))

/-- C29. -/
theorem C29_response_content (id msg : UInt32) (resp : Option Resp) (cs : List Choice) (s : St)
    (h : run (init id msg resp) cs = some s) (r : Resp) (newer older : List Ev)
    (hl : s.d.log = newer ++ .delivered r :: older) : ProperResponse cs id msg r older := by
  have hi := inv_reach (ok := fun c => c ∈ cs) (rules2 _ id msg)
    ⟨rfl, rfl, trivial, by simp [init]⟩ (by simp) h
  have he := inv_any hi (P := fun d => Everywhere (Ev2 (· ∈ cs) id msg) d.log) (fun h => h.2.2.1)
    (fun p hp => (H2_C2 hp).2.2.1)
  obtain ⟨h1, h2, k, h3, h4⟩ := everywhere_split he hl
  refine ⟨h1, h2, ?_⟩
  rcases h4 with ⟨rfl, h5, h6⟩ | ⟨rfl, h5, h6⟩
  · exact .inl ⟨h3, h5, h6⟩
  · exact .inr ⟨by rw [h3, h5], h5, h6⟩

/-- C29 for bookmarks: they see the same response as the Responder. -/
theorem C29_bookmark_content (id msg : UInt32) (resp : Option Resp) (cs : List Choice) (s : St)
    (h : run (init id msg resp) cs = some s) (b : Nat) (r : Resp) (newer older : List Ev)
    (hl : s.d.log = newer ++ .notified b r :: older) : ProperResponse cs id msg r older := by
  have hi := inv_reach (ok := fun c => c ∈ cs) (rules2 _ id msg)
    ⟨rfl, rfl, trivial, by simp [init]⟩ (by simp) h
  have he := inv_any hi (P := fun d => Everywhere (Ev2 (· ∈ cs) id msg) d.log) (fun h => h.2.2.1)
    (fun p hp => (H2_C2 hp).2.2.1)
  obtain ⟨h1, h2, k, h3, h4⟩ := everywhere_split he hl
  refine ⟨h1, h2, ?_⟩
  rcases h4 with ⟨rfl, h5, h6⟩ | ⟨rfl, h5, h6⟩
  · exact .inl ⟨h3, h5, h6⟩
  · exact .inr ⟨by rw [h3, h5], h5, h6⟩

/-- C29. Without resets, an answering call has no effect only when the request is answered already, or, for an answer
with a body, was not claimed. -/
theorem C29_answers_take_effect (id msg : UInt32) (resp : Option Resp) (cs : List Choice) (s : St)
    (hp : ∀ c ∈ cs, c.plain = true) (h : run (init id msg resp) cs = some s) (op : Op) (newer older : List Ev)
    (hl : s.d.log = newer ++ .ignored op :: older) :
    deliveries older = 1 ∨ (∃ c b, op = .respond c b) ∧ ∀ t, Ev.claimed t ∉ older := by
  have hi := inv_reach rules10
    ⟨⟨trivial, by simp [init, allChained, allNotified, Q1, deliveries]⟩, trivial, by simp [init, wasClaimed]⟩ hp h
  have he := inv_any hi (P := fun d => Everywhere Ev10 d.log) (fun h => h.2.1) (fun p hp => hp.2.1)
  have := everywhere_split he hl
  cases op <;> simp only [Ev10, wasClaimed, not_exists] at this
  case respond c b => exact this.imp_right fun h => ⟨⟨_, _, rfl⟩, h⟩
  all_goals exact .inl this

/-- A late answer, and an answer to an unclaimed request. -/
example : (run (init 7 1 none)
    [.call 0 .setPending, .go 0, .call 1 (.respond 0 none), .go 1, .go 1, .go 1, .call 2 (.fail 0xfe03), .go 2, .go 2,
     .go 2, .go 2, .responder 2 [], .go 2, .go 2, .go 2, .call 1 (.respond 0 none), .go 1, .go 1]).map
      (fun s => s.d.log) =
    some [.ignored (.respond 0 none), .returned 2 (.fail 0xfe03), .delivered ⟨7, 1, 0xfe03, none⟩,
      .accepted false 0xfe03 none, .returned 1 (.respond 0 none), .ignored (.respond 0 none),
      .returned 0 .setPending, .sent] := by decide +kernel

/-- A claimed request with a stale response object and a bookmark, answered with a body. -/
example : (run (init 7 1 (some ⟨99, 98, 97, some [1]⟩))
    [.call 0 .setPending, .go 0, .call 1 (.claimWith 5), .go 1, .go 1, .go 1, .go 1, .go 1,
     .call 2 (.respond 0 (some [42])), .go 2, .go 2, .go 2, .go 2, .bookmark 2 [], .go 2, .go 2, .responder 2 [],
     .go 2, .go 2, .go 2]).map (fun s => (s.d.log, s.d.chain)) =
    some ([.returned 2 (.respond 0 (some [42])), .delivered ⟨7, 1, 0, some [42]⟩, .passed 5,
      .notified 5 ⟨7, 1, 0, some [42]⟩, .accepted true 0 (some [42]),
      .returned 1 (.claimWith 5), .chained 5, .claimed 1, .returned 0 .setPending, .sent], []) := by decide +kernel

/-- C30. When the Responder is called, exactly the bookmarks that were outstanding when the answering call was
accepted have been notified since then, the latest chained first, each once; none is left; and afterwards the request
has no bookmarks. Holds even when bookmarks reset the request (a bookmark that resets the request stays chained
and is notified by the next answer again). -/
theorem C30_unwinding (id msg : UInt32) (resp : Option Resp) (cs : List Choice) (s : St)
    (h : run (init id msg resp) cs = some s) (r : Resp) (newer older : List Ev)
    (hl : s.d.log = newer ++ .delivered r :: older) :
    notifiedSince older = outstanding (beforeAccepted older) ∧ outstanding older = [] ∧ s.d.chain = [] := by
  have hi := inv_reach (ok := fun _ => True) rules3 ⟨trivial, rfl⟩ (by simp) h
  have he := inv_any hi (P := fun d => Everywhere Ev3 d.log) (fun h => h.1)
    (fun p hp => by cases p <;> simp only [H3] at hp <;> first | exact hp.1 | exact hp.1.1)
  obtain ⟨h1, h2⟩ := everywhere_split he hl
  refine ⟨h2, h1, ?_⟩
  have hi1 := inv_reach (ok := fun _ => True) rules1 (by simp [init, Q1, deliveries]) (by simp) h
  have hd : deliveries s.d.log ≠ 0 := hl ▸ deliveries_split
  refine inv_any hi1 (P := fun d => d.chain = []) ?_ ?_
  · intro h; grind [Q1]
  · intro p hp; cases p <;> simp only [H1, Q1] at hp <;> grind

/-- C30, when no user code resets the request: the Responder is called after all bookmarks ever chained were notified,
each once, in the reverse order of chaining. -/
theorem C30_all_bookmarks (id msg : UInt32) (resp : Option Resp) (cs : List Choice) (s : St)
    (hp : ∀ c ∈ cs, c.plain = true) (h : run (init id msg resp) cs = some s) (r : Resp) (newer older : List Ev)
    (hl : s.d.log = newer ++ .delivered r :: older) :
    allNotified older = allChained older ∧ allChained newer = [] ∧ allNotified newer = [] := by
  have hi := inv_reach rules4 ⟨trivial, by simp [init, allChained, allNotified, Q1, deliveries]⟩ hp h
  have he := inv_any hi (P := fun d => Everywhere Ev4 d.log ∧ (deliveries d.log ≠ 0 → allNotified d.log = allChained d.log)) ?_ ?_
  · have h1 : allNotified older = allChained older := everywhere_split he.1 hl
    have happC : ∀ a b, allChained (a ++ b) = allChained a ++ allChained b := by
      intro a b; induction a with
      | nil => rfl
      | cons e a ih => cases e <;> simp [allChained, ih]
    have happN : ∀ a b, allNotified (a ++ b) = allNotified b ++ allNotified a := by
      intro a b; induction a with
      | nil => simp [allNotified]
      | cons e a ih => cases e <;> simp [allNotified, ih]
    have hd : deliveries s.d.log ≠ 0 := hl ▸ deliveries_split
    have h2 := he.2 hd
    rw [hl, happC, happN] at h2
    simp only [allChained, allNotified] at h2
    rw [h1] at h2
    have hnc : allChained newer = [] := by
      have := C28_nothing_after id msg resp cs s h r newer older hl
      clear h2 hl
      induction newer with
      | nil => rfl
      | cons e l ih =>
        have h' := this e (by simp)
        cases e <;> simp only [allChained] <;> first | exact ih fun e he => this e (by simp [he]) | simp at h'
    refine ⟨h1, hnc, ?_⟩
    rw [hnc] at h2
    simpa using h2
  · intro h; refine ⟨h.1, fun hd => ?_⟩; grind [C4, Q1]
  · intro p hp; cases p <;> simp only [H4, C4, E4, Q1] at hp <;> grind

/-- Three bookmarks, the last chained by the claim; one of them resends the request once (a resender). -/
example : (run (init 7 1 none)
    [.call 0 (.chain 1), .go 0, .go 0, .go 0, .call 0 (.chain 2), .go 0, .go 0, .go 0, .call 0 .setPending, .go 0,
     .call 1 (.fail 0xfe03), .go 1, .go 1, .go 1, .go 1, .bookmark 1 [.resetPending], .go 1, .go 1, .go 1, .go 1,
     .call 1 (.claimWith 3), .go 1, .go 1, .go 1, .go 1, .go 1,
     .call 2 (.respond 0 (some [42])), .go 2, .go 2, .go 2, .go 2, .bookmark 2 [], .go 2, .go 2,
     .bookmark 2 [], .go 2, .go 2, .bookmark 2 [], .go 2, .go 2, .responder 2 [],
     .go 2, .go 2, .go 2]).map (fun s => (s.d.rs, s.d.chain, notifiedSince s.d.log)) =
    some (.performed, [], [3, 2, 1]) := by decide +kernel

/-- C31, partial: when no user code resets the request or blocks under its lock, a failure call (Cancel, Expire,
IOError, ShutDown) returns only after the Responder was called.
Missing: with a bookmark that resets the request the claim is false, see `C31_reset_violated`. -/
theorem C31_fail_answers_partial (id msg : UInt32) (resp : Option Resp) (cs : List Choice) (s : St)
    (hp : ∀ c ∈ cs, c.plain = true) (h : run (init id msg resp) cs = some s) (t : Nat) (code : UInt32)
    (newer older : List Ev) (hl : s.d.log = newer ++ .returned t (.fail code) :: older) :
    ∃ r, Ev.delivered r ∈ older := by
  have hi := inv_reach rules4 ⟨trivial, by simp [init, allChained, allNotified, Q1, deliveries]⟩ hp h
  have he := inv_any hi (P := fun d => Everywhere Ev4 d.log) (fun h => h.1)
    (by intro p hp; cases p <;> simp only [H4, C4, E4, Q1] at hp <;> grind)
  have h1 : deliveries older = 1 := everywhere_split he hl
  clear hl
  induction older with
  | nil => simp [deliveries] at h1
  | cons e l ih =>
    cases e <;> simp only [deliveries] at h1 <;>
      first
      | exact ⟨_, List.mem_cons_self⟩
      | (obtain ⟨r, hr⟩ := ih h1; exact ⟨r, List.mem_cons_of_mem _ hr⟩)

/-- C31. Without resets and blocking user code the calls also come back: in every reachable state a goroutine inside
the critical section can leave it by its own steps alone, so nobody waits for the request's lock forever. -/
theorem C31_lock_is_released (id msg : UInt32) (resp : Option Resp) (cs : List Choice) (s : St)
    (hp : ∀ c ∈ cs, c.plain = true) (h : run (init id msg resp) cs = some s) (t : Nat)
    (hl : s.lock = some t) :
    ∃ cs' s', (∀ c ∈ cs', c = .go t ∨ (∃ acts, c = .bookmark t acts) ∨ ∃ acts, c = .responder t acts) ∧
      run s cs' = some s' ∧ s'.lock = none := by
  have hi : AllInv (fun _ => True) id msg s :=
    ⟨inv_reach (rules2 _ id msg) ⟨rfl, rfl, trivial, by simp [init]⟩ (by simp) h,
     inv_reach rules4 ⟨trivial, by simp [init, allChained, allNotified, Q1, deliveries]⟩ hp h,
     inv_reach rules9 trivial (by simp) h⟩
  obtain ⟨cs', s', h1, h2, h3⟩ := owner_releases _ hi hl (Nat.le_refl _)
  refine ⟨cs', s', fun c hc => ?_, h2, h3⟩
  have := h1 c hc
  cases c <;> simp_all [Choice.moves]

/-- A state inside the critical section, with a bookmark to go. -/
example : (run (init 7 1 none) [.call 0 (.chain 1), .go 0, .go 0, .go 0, .call 1 (.fail 0xfe03), .go 1, .go 1, .go 1,
    .go 1]).map (fun s => (s.lock, s.pc 1, s.d.chain)) = some (some 1, .walk (.fail 0xfe03), [1]) := by decide +kernel

/-- C31 is violated by a bookmark that resets the request on failure, as `ReqContext.Respond` does for `RcTimeout`
(request.go:196-206): Expire has returned and the request is not answered, it is claimed again and stays so. -/
theorem C31_reset_violated : ∃ (cs : List Choice) (s : St), run (init 7 1 none) cs = some s ∧
    (∃ t older, s.d.log = .returned t (.fail 0xfd03) :: older) ∧ deliveries s.d.log = 0 ∧ s.d.rs = .inFly := by
  refine ⟨[.call 0 .setPending, .go 0, .call 1 (.claimWith 3), .go 1, .go 1, .go 1, .go 1, .go 1,
    .call 2 (.fail 0xfd03), .go 2, .go 2, .go 2, .go 2, .bookmark 2 [.resetPending, .claim], .go 2, .go 2, .go 2,
    .go 2, .go 2], _, rfl, ⟨2, _, rfl⟩, ?_, ?_⟩ <;> decide +kernel

/-- C32. When the Responder itself does not reset the request, `SetInFly` succeeds only on a request that was sent
and not answered: before every successful claim the request became pending and the Responder was not yet called (so a
request answered before being claimed is never claimed later). Bookmarks may reset the request freely. -/
theorem C32_claim_only_unanswered_partial (id msg : UInt32) (resp : Option Resp) (cs : List Choice) (s : St)
    (hp : ∀ c ∈ cs, c.finalPlain = true) (h : run (init id msg resp) cs = some s) (t : Nat)
    (newer older : List Ev) (hl : s.d.log = newer ++ .claimed t :: older) :
    Ev.sent ∈ older ∧ ∀ r, Ev.delivered r ∉ older := by
  have hi := inv_reach rules5 ⟨⟨trivial, by simp [init]⟩, by simp [init, Q1, deliveries]⟩ hp h
  have he := inv_any hi (P := fun d => Everywhere Ev5 d.log) (fun h => h.1.1)
    (by intro p hp; cases p <;> simp only [H5, E5] at hp <;> grind)
  obtain ⟨h1, h2⟩ : Ev.sent ∈ older ∧ deliveries older = 0 := everywhere_split he hl
  refine ⟨h1, fun r hr => ?_⟩
  obtain ⟨a, b, rfl⟩ := List.append_of_mem hr
  exact deliveries_split h2

/-- C32 is violated by a Responder that resets the request (which the comment at request.go:109 recommends): another
goroutine claims the request after its response was delivered. -/
theorem C32_reset_in_responder_violated : ∃ (cs : List Choice) (s : St), run (init 7 1 none) cs = some s ∧
    ∃ t r older, s.d.log = .returned t .claim :: .claimed t :: .sent :: .reset :: .delivered r :: older := by
  refine ⟨[.call 0 .setPending, .go 0, .call 1 (.fail 0xfe03), .go 1, .go 1, .go 1, .go 1,
    .responder 1 [.resetPending], .go 1, .call 2 .claim, .go 2], _, rfl, 2, _, _, rfl⟩

/-- C33, partial: when all claims are made without a bookmark, the request is claimed at most once since it was last
sent, whatever else happens (resets included).
Missing: mixed claims, see `C33_mixed_claims_violated`. -/
theorem C33_one_claim_partial (id msg : UInt32) (resp : Option Resp) (cs : List Choice) (s : St)
    (hp : ∀ c ∈ cs, c.noClaimWith = true) (h : run (init id msg resp) cs = some s) :
    claimsSinceSent s.d.log ≤ 1 := by
  have hi := inv_reach rules6 ⟨by simp [init, claimsSinceSent], by simp [init]⟩ hp h
  exact inv_any hi (P := fun d => claimsSinceSent d.log ≤ 1) (fun h => h.1)
    (by intro p hp; unfold H6 at hp; split at hp <;> first | exact hp.elim | exact hp.1)

/-- C33, partial: the same when all claims are made with a bookmark. -/
theorem C33_one_claim_with_bookmark_partial (id msg : UInt32) (resp : Option Resp) (cs : List Choice) (s : St)
    (hp : ∀ c ∈ cs, c.noPlainClaim = true) (h : run (init id msg resp) cs = some s) :
    claimsSinceSent s.d.log ≤ 1 := by
  have hi := inv_reach rules7 ⟨by simp [init, claimsSinceSent], by simp [init]⟩ hp h
  exact inv_any hi (P := fun d => claimsSinceSent d.log ≤ 1) (fun h => h.1)
    (by intro p hp; cases p <;> simp only [H7] at hp <;> first | exact hp.1 | exact hp.1.1)

/-- Two goroutines claim; one succeeds. -/
example : (run (init 7 1 none) [.call 0 .setPending, .go 0, .call 1 .claim, .call 2 .claim, .go 2, .go 1]).map
    (fun s => s.d.log) = some [.returned 1 .claim, .returned 2 .claim, .claimed 2, .returned 0 .setPending, .sent] := by
  decide +kernel
example : (run (init 7 1 none) [.call 0 .setPending, .go 0, .call 1 (.claimWith 1), .call 2 (.claimWith 2),
    .go 2, .go 2, .go 2, .go 2, .go 2, .go 1, .go 1, .go 1]).map
    (fun s => claimsSinceSent s.d.log) = some 1 := by decide +kernel

/-- C33 is violated when a claim with a bookmark (locked read, then plain write, request.go:88-92) races with a claim
without one (compare-and-swap without the lock): both goroutines own the request. -/
theorem C33_mixed_claims_violated : ∃ (cs : List Choice) (s : St), (∀ c ∈ cs, c.plain = true) ∧
    run (init 7 1 none) cs = some s ∧ claimsSinceSent s.d.log = 2 := by
  refine ⟨[.call 0 .setPending, .go 0, .call 1 (.claimWith 3), .go 1, .go 1, .call 2 .claim, .go 2, .go 1],
    _, ?_, rfl, ?_⟩ <;> decide +kernel

end Verif.Props
