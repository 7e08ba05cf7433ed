import Verif.Model.WebApp
import Mathlib.Tactic.Common
import Mathlib.Data.List.Infix

/-!
# C47: with a secret set, every route except login needs the cookie
# C51: a feature url leads back to its document and feature
# C52: the training monitor keeps the most recent points
-/

namespace Zounds.Web
variable {R : Type}

/-! ## Specification of C47 -/

/-- A handler method was invoked. -/
def Outcome.invoked : Outcome R → Prop
  | .ran _ _ => True
  | _ => False

/-- The outcome carries a cookie signed by this application. -/
def Outcome.grants (app : App) : Outcome R → Prop
  | .ran _ (some c) => c.key = app.cookieKey
  | _ => False

/-- The handler class does not define PATCH. -/
def NoPatch (h : Handler R) : Prop := ∀ req, h .patch req = .methodNotAllowed

/-- The request shows no cookie of this application (no cookie, or one signed with another key, i.e. a forged one). -/
def Anonymous (app : App) (req : Request) : Prop := ∀ c, req.cookie = some c → c.key ≠ app.cookieKey

/-! ## One request -/

theorem not_loggedIn {app : App} {req : Request} (h : Anonymous app req) : loggedIn app req = false := by
  unfold loggedIn secureCookie
  cases hc : req.cookie with
  | none => rfl
  | some c => simp [h c hc]

theorem secured_refuses (app : App) (h : Handler R) (m : Method) (req : Request) (ha : Anonymous app req)
    (hm : m ≠ .patch) : secured app h m req = if m = .get ∨ m = .head then .redirectToLogin else .forbidden := by
  have hl := not_loggedIn ha
  cases m <;> simp [secured, authenticated, hl] at hm ⊢

/-- The route that handles a path. -/
def routeFor : List (Route R) → List Char → Option (Route R)
  | [], _ => none
  | r :: rs, p => if r.accepts p then some r else routeFor rs p

theorem dispatch_eq (rs : List (Route R)) (req : Request) :
    dispatch rs req = match routeFor rs req.path with
      | none => .notFound
      | some r => r.handler req.method req := by
  induction rs with
  | nil => rfl
  | cons r rs ih =>
    simp only [dispatch, routeFor]
    split
    · rfl
    · exact ih

theorem secureRoute_accepts (app : App) (r : Route R) : (secureRoute app r).accepts = r.accepts := by
  unfold secureRoute; split <;> rfl

theorem routeFor_map (app : App) (rs : List (Route R)) (p : List Char) :
    routeFor (rs.map (secureRoute app)) p = (routeFor rs p).map (secureRoute app) := by
  induction rs with
  | nil => rfl
  | cons r rs ih =>
    simp only [List.map_cons, routeFor, secureRoute_accepts]
    split
    · rfl
    · exact ih

/-- Securing the application does not change which route handles a path. -/
theorem dispatch_secured (app : App) (s : List Char) (hs : app.secret = some s) (hne : s ≠ [])
    (custom base : List (Route R)) (req : Request) :
    dispatch (makeApp app custom base) req = match routeFor (custom ++ base) req.path with
      | none => .notFound
      | some r => (secureRoute app r).handler req.method req := by
  rw [dispatch_eq]
  simp only [makeApp, hs, hne, if_false, routeFor_map]
  cases routeFor (custom ++ base) req.path <;> rfl

/-- **C47, one anonymous request**: with a non-empty secret, a request without the cookie whose path is handled by a route whose
pattern does not contain `login` never invokes the handler (any method other than PATCH): GET and HEAD are redirected to the
login page, the others forbidden. -/
theorem C47_anonymous (app : App) (s : List Char) (hs : app.secret = some s) (hne : s ≠ [])
    (custom base : List (Route R)) (req : Request) (r : Route R)
    (hr : routeFor (custom ++ base) req.path = some r) (hp : ¬ (['l', 'o', 'g', 'i', 'n'] <:+: r.pattern))
    (ha : Anonymous app req) (hm : req.method ≠ .patch) :
    dispatch (makeApp app custom base) req =
      if req.method = .get ∨ req.method = .head then .redirectToLogin else .forbidden := by
  have hp : ¬ (loginText <:+: r.pattern) := hp
  rw [dispatch_secured app s hs hne, hr]
  simp only [secureRoute, hp, if_false]
  exact secured_refuses app _ _ _ ha hm

example (f : Request → Nat) := C47_anonymous ⟨some ['x'], 7⟩ ['x'] rfl (by decide) [⟨['/', 'a'], fun p => decide (p = ['/', 'a']), fun _ req => .ran (f req) none⟩] [] ⟨.get, ['/', 'a'], none, none⟩ _ rfl
  (fun h => by have := h.length_le; simp [loginText] at this) (fun c h => nomatch h) (by decide)

/-- **C47, with the cookie everything works as without security**: a request with a valid, non-empty cookie gets exactly the answer
the unsecured application would give. -/
theorem C47_transparent (app : App) (s : List Char) (hs : app.secret = some s) (hne : s ≠ [])
    (custom base : List (Route R)) (req : Request) (v : List Char) (hv : v ≠ [])
    (hc : req.cookie = some ⟨app.cookieKey, v⟩) :
    dispatch (makeApp app custom base) req = dispatch (custom ++ base) req := by
  have hl : loggedIn app req = true := by simp [loggedIn, secureCookie, hc, hv]
  rw [dispatch_secured app s hs hne, dispatch_eq]
  cases routeFor (custom ++ base) req.path with
  | none => rfl
  | some r =>
    simp only [secureRoute]
    split
    · rfl
    · simp only [secured]
      cases req.method <;> simp [authenticated, hl]

example (f : Request → Nat) := C47_transparent ⟨some ['x'], 7⟩ ['x'] rfl (by decide) (monitorRoutes f f f f) (baseRoutes ⟨some ['x'], 7⟩ f f 1 2 3) ⟨.get, ['/'], some ⟨7, ['x']⟩, none⟩ ['x'] (by decide) rfl

/-- **C47, no secret**: without a secret the routes are the original ones. -/
theorem C47_no_secret (app : App) (h : app.secret = none) (custom base : List (Route R)) :
    makeApp app custom base = custom ++ base := by simp [makeApp, h]

example (f : Request → Nat) := C47_no_secret ⟨none, 7⟩ rfl (monitorRoutes f f f f) (baseRoutes ⟨none, 7⟩ f f 1 2 3)

/-- **C47, refuted**: an empty secret (e.g. an empty `--app-secret`) silently means no security at all. -/
theorem C47_empty_secret_refuted (key : Nat) (custom base : List (Route R)) :
    makeApp ⟨some [], key⟩ custom base = custom ++ base := by simp [makeApp]

/-- **C47, refuted**: a route whose pattern merely contains the letters `login` anywhere is left open, whatever it serves. -/
theorem C47_login_substring_refuted (app : App) (custom base : List (Route R)) (req : Request) (r : Route R)
    (s : List Char) (hs : app.secret = some s) (hne : s ≠ [])
    (hr : routeFor (custom ++ base) req.path = some r) (hp : ['l', 'o', 'g', 'i', 'n'] <:+: r.pattern) :
    dispatch (makeApp app custom base) req = r.handler req.method req := by
  have hp : loginText <:+: r.pattern := hp
  rw [dispatch_secured app s hs hne, hr]
  simp [secureRoute, hp]

/-- **C47, refuted**: PATCH is not wrapped, so a handler that defines it is invoked without the cookie. -/
theorem C47_patch_refuted (app : App) (custom base : List (Route R)) (req : Request) (r : Route R)
    (s : List Char) (hs : app.secret = some s) (hne : s ≠ [])
    (hr : routeFor (custom ++ base) req.path = some r) (hm : req.method = .patch) :
    dispatch (makeApp app custom base) req = r.handler .patch req := by
  rw [dispatch_secured app s hs hne, hr, hm]
  simp only [secureRoute]
  split <;> rfl

/-- **C47, login**: the login handler hands out a cookie exactly when the posted secret is the application's; no other method or
secret yields one. -/
theorem C47_login_iff (app : App) (page un home : R) (m : Method) (req : Request) :
    (loginHandler app page un home m req).grants app ↔ m = .post ∧ ∃ s, req.secret = some s ∧ app.secret = some s := by
  unfold loginHandler
  cases m <;> simp [Outcome.grants]
  cases hs : req.secret with
  | none => simp [Outcome.grants]
  | some s =>
    by_cases h : some s = app.secret
    · simp only [h, if_true]; exact ⟨fun _ => ⟨s, h.symm, h.symm⟩, fun _ => trivial⟩
    · simp [h, Outcome.grants]; exact fun e => h e.symm

/-! ## Histories -/

/-- One client: what it sends, and the cookie it gets. `jar` holds the cookie the application has set, if any. -/
def session (routes : List (Route R)) : Option Cookie → List (Option Cookie → Request) → List (Outcome R)
  | _, [] => []
  | jar, f :: fs =>
    let o := dispatch routes (f jar)
    o :: session routes (match o with | .ran _ (some c) => some c | _ => jar) fs

/-- The client is honest about cookies: it sends the one it has been given, or none, or one signed with another key. -/
def Unforged (app : App) (f : Option Cookie → Request) : Prop :=
  ∀ jar c, (f jar).cookie = some c → some c = jar ∨ c.key ≠ app.cookieKey

/-- The client never posts the right secret. -/
def NeverRight (app : App) (f : Option Cookie → Request) : Prop :=
  ∀ jar s, (f jar).secret = some s → app.secret ≠ some s

/-- **C47, whole sessions**: take any application with a non-empty secret whose custom routes do not contain `login` and do not
define PATCH, with the base routes of the library.  Then through any sequence of requests, of any
length, a client that never posts the right secret (and cannot forge signatures) never gets anything but the login
handler's own answers: every request that a route other than login handles is refused. -/
theorem C47_sessions (app : App) (s : List Char) (hs : app.secret = some s) (hne : s ≠ [])
    (custom : List (Route R)) (hcustom : ∀ r ∈ custom, ¬ (['l', 'o', 'g', 'i', 'n'] <:+: r.pattern) ∧ NoPatch r.handler)
    (ui feature : Request → R) (page un home : R)
    (reqs : List (Option Cookie → Request)) (hu : ∀ f ∈ reqs, Unforged app f) (hw : ∀ f ∈ reqs, NeverRight app f) :
    ∀ o ∈ session (makeApp app custom (baseRoutes app ui feature page un home)) none reqs,
      ¬ o.invoked ∨ (o = .ran page none ∨ o = .ran un none) := by
  have hcustom : ∀ r ∈ custom, ¬ (loginText <:+: r.pattern) ∧ NoPatch r.handler := hcustom
  have one : ∀ req : Request, Anonymous app req → (∀ s', req.secret = some s' → app.secret ≠ some s') →
      let o := dispatch (makeApp app custom (baseRoutes app ui feature page un home)) req
      ¬ o.invoked ∨ (o = .ran page none ∨ o = .ran un none) := by
    intro req ha hsec
    simp only
    rw [dispatch_secured app s hs hne]
    cases hr : routeFor (custom ++ baseRoutes app ui feature page un home) req.path with
    | none => left; simp [Outcome.invoked]
    | some r =>
      simp only
      have hmem : r ∈ custom ++ baseRoutes app ui feature page un home := by
        clear hsec
        revert hr
        generalize custom ++ baseRoutes app ui feature page un home = l
        induction l with
        | nil => simp [routeFor]
        | cons x xs ih =>
          simp only [routeFor]
          split
          · intro h; simp at h; simp [h]
          · intro h; exact List.mem_cons_of_mem _ (ih h)
      have prot : ¬ (loginText <:+: r.pattern) → NoPatch r.handler →
          ¬ ((secureRoute app r).handler req.method req).invoked := by
        intro h1 h2
        simp only [secureRoute, h1, if_false]
        by_cases hm : req.method = .patch
        · rw [hm]; simp only [secured]; rw [h2]; simp [Outcome.invoked]
        · rw [secured_refuses app _ _ _ ha hm]; split <;> simp [Outcome.invoked]
      rw [List.mem_append] at hmem
      rcases hmem with hmem | hmem
      · exact Or.inl (prot (hcustom r hmem).1 (hcustom r hmem).2)
      · simp only [baseRoutes, List.mem_cons, List.not_mem_nil, or_false] at hmem
        rcases hmem with rfl | rfl | rfl
        · exact Or.inl (prot (show ¬ (loginText <:+: _) by dsimp only; decide) (fun _ => rfl))
        · exact Or.inl (prot (show ¬ (loginText <:+: _) by dsimp only; decide) (fun _ => rfl))
        · have hl : loginText <:+: zoundsText ++ loginText ++ ['/', '?'] := ⟨zoundsText, ['/', '?'], rfl⟩
          simp only [secureRoute, hl, if_true, loginHandler]
          cases req.method <;> simp [Outcome.invoked]
          cases hsc : req.secret with
          | none => simp
          | some s' =>
            have := hsec s' hsc
            have h' : ¬ (some s' = app.secret) := fun e => this e.symm
            simp [h']
  have jarNone : ∀ (o : Outcome R), (¬ o.invoked ∨ (o = .ran page none ∨ o = .ran un none)) →
      (match o with | .ran _ (some c) => some c | _ => (none : Option Cookie)) = none := by
    intro o h
    cases o with
    | ran r c =>
      rcases h with h | h | h
      · exact absurd trivial h
      · cases h; rfl
      · cases h; rfl
    | _ => rfl
  induction reqs with
  | nil => intro o h; simp [session] at h
  | cons f fs ih =>
    intro o ho
    have h1 := one (f none) (by
      intro c hc
      rcases hu f (by simp) none c hc with h | h
      · cases h
      · exact h) (hw f (by simp) none)
    simp only [session] at ho
    rw [jarNone _ h1] at ho
    rw [List.mem_cons] at ho
    rcases ho with rfl | ho
    · exact h1
    · exact ih (fun g hg => hu g (by simp [hg])) (fun g hg => hw g (by simp [hg])) o ho

/-- **C47, the library's own applications** (REPL and training monitor) meet the conditions of `C47_sessions`. -/
theorem C47_library_routes (temp repl training graph : Request → R) :
    ∀ r ∈ monitorRoutes temp repl training graph, ¬ (loginText <:+: r.pattern) ∧ NoPatch r.handler := by
  intro r hr
  simp only [monitorRoutes, replRoutes, List.cons_append, List.nil_append, List.mem_cons, List.not_mem_nil, or_false] at hr
  rcases hr with rfl | rfl | rfl | rfl
  · exact ⟨show ¬ (loginText <:+: _) by dsimp only; decide, fun _ => rfl⟩
  · exact ⟨show ¬ (loginText <:+: _) by dsimp only; decide, fun _ => rfl⟩
  · exact ⟨show ¬ (loginText <:+: _) by dsimp only; decide, fun _ => rfl⟩
  · exact ⟨show ¬ (loginText <:+: _) by dsimp only; decide, fun _ => rfl⟩

/-- **C47, the login page stays reachable**: the login url is handled by the login handler itself (in the library's own
applications), with or without a cookie, so a client can always log in, and posting the right secret yields a cookie that
opens every route. -/
theorem C47_can_log_in (app : App) (s : List Char) (hs : app.secret = some s) (hne : s ≠ [])
    (temp repl training graph ui feature : Request → R) (page un home : R) (cookie : Option Cookie) :
    dispatch (makeApp app (monitorRoutes temp repl training graph) (baseRoutes app ui feature page un home))
      ⟨.post, ['/', 'z', 'o', 'u', 'n', 'd', 's', '/', 'l', 'o', 'g', 'i', 'n'], cookie, some s⟩ = .ran home (some ⟨app.cookieKey, s⟩) ∧
    ∀ req, req.cookie = some ⟨app.cookieKey, s⟩ →
      dispatch (makeApp app (monitorRoutes temp repl training graph) (baseRoutes app ui feature page un home)) req =
      dispatch (monitorRoutes temp repl training graph ++ baseRoutes app ui feature page un home) req := by
  constructor
  · show dispatch _ ⟨.post, zoundsText ++ loginText, cookie, some s⟩ = _
    rw [dispatch_secured app s hs hne]
    have hr : routeFor (monitorRoutes temp repl training graph ++ baseRoutes app ui feature page un home)
        (zoundsText ++ loginText) =
        some ⟨zoundsText ++ loginText ++ ['/', '?'], namedMatch loginText, loginHandler app page un home⟩ := by
      rfl
    rw [hr]
    have hl : loginText <:+: zoundsText ++ loginText ++ ['/', '?'] := ⟨zoundsText, ['/', '?'], rfl⟩
    simp [secureRoute, hl, loginHandler, hs]
  · intro req hc
    exact C47_transparent app s hs hne _ _ req s hne hc

example (f : Request → Nat) := C47_can_log_in ⟨some ['x'], 7⟩ ['x'] rfl (by decide) f f f f f f 1 2 3 none

/-! ## C317: every endpoint answers its own method only -/

/-- The url of a named endpoint, with or without the final slash. -/
def namedUrl (name : List Char) (slash : Bool) : List Char := ['/', 'z', 'o', 'u', 'n', 'd', 's', '/'] ++ name ++ (if slash then ['/'] else [])

/-- **C317**: in the training monitor, whatever the cookies and the form say, GET on `/zounds/training` and `/zounds/graph` (with or without a final slash) and on `/` is answered by the training, graph and
front page handlers, POST on `/zounds/repl` by the interpreter, and every other method on them is refused with 405: nothing but a POST can run code, and a POST can do nothing else. -/
theorem C317_endpoints (app : App) (temp repl training graph ui feat : Request → R) (page un home : R) (m : Method) (slash : Bool) (c : Option Cookie) (sec : Option (List Char)) :
    (∀ req : Request, req = ⟨m, namedUrl ['t', 'r', 'a', 'i', 'n', 'i', 'n', 'g'] slash, c, sec⟩ →
      dispatch (monitorRoutes temp repl training graph ++ baseRoutes app ui feat page un home) req = if m = .get then .ran (training req) none else .methodNotAllowed) ∧
    (∀ req : Request, req = ⟨m, namedUrl ['g', 'r', 'a', 'p', 'h'] slash, c, sec⟩ →
      dispatch (monitorRoutes temp repl training graph ++ baseRoutes app ui feat page un home) req = if m = .get then .ran (graph req) none else .methodNotAllowed) ∧
    (∀ req : Request, req = ⟨m, ['/'], c, sec⟩ →
      dispatch (monitorRoutes temp repl training graph ++ baseRoutes app ui feat page un home) req = if m = .get then .ran (ui req) none else .methodNotAllowed) ∧
    (∀ req : Request, req = ⟨m, namedUrl ['r', 'e', 'p', 'l'] slash, c, sec⟩ →
      dispatch (monitorRoutes temp repl training graph ++ baseRoutes app ui feat page un home) req = if m = .post then .ran (repl req) none else .methodNotAllowed) := by
  refine ⟨?_, ?_, ?_, ?_⟩ <;> (rintro req rfl; cases slash <;> cases m <;> rfl)

/-- **C317, only the interpreter runs code**: whatever is posted to a path of the monitor, a handler runs only if the path is the interpreter's or the login page's. -/
theorem C317_post (app : App) (temp repl training graph ui feat : Request → R) (page un home : R) (p : List Char) (c : Option Cookie) (sec : Option (List Char)) (r : R) (k : Option Cookie)
    (h : dispatch (monitorRoutes temp repl training graph ++ baseRoutes app ui feat page un home) ⟨.post, p, c, sec⟩ = .ran r k) :
    (p = namedUrl ['r', 'e', 'p', 'l'] false ∨ p = namedUrl ['r', 'e', 'p', 'l'] true) ∧ r = repl ⟨.post, p, c, sec⟩ ∧ k = none ∨
    (p = namedUrl ['l', 'o', 'g', 'i', 'n'] false ∨ p = namedUrl ['l', 'o', 'g', 'i', 'n'] true) ∧ (r = home ∨ r = un) := by
  simp only [monitorRoutes, replRoutes, baseRoutes, List.cons_append, List.nil_append, dispatch, getOnly, postOnly] at h
  split at h
  · cases h
  · split at h
    · rename_i hp
      cases h
      left
      refine ⟨?_, rfl, rfl⟩
      simp only [namedMatch, Bool.or_eq_true, beq_iff_eq] at hp
      rcases hp with hp | hp
      · left; rw [hp]; simp [namedUrl, zoundsText, loginText]
      · right; rw [hp]; simp [namedUrl, zoundsText, loginText]
    · split at h
      · cases h
      · split at h
        · cases h
        · split at h
          · cases h
          · split at h
            · cases h
            · split at h
              · rename_i hp
                right
                refine ⟨?_, ?_⟩
                · simp only [namedMatch, Bool.or_eq_true, beq_iff_eq] at hp
                  rcases hp with hp | hp
                  · left; rw [hp]; simp [namedUrl, zoundsText, loginText]
                  · right; rw [hp]; simp [namedUrl, zoundsText, loginText]
                · unfold loginHandler at h
                  cases sec with
                  | none => cases h
                  | some s =>
                    simp only [] at h
                    split at h
                    · cases h; left; rfl
                    · cases h; right; rfl
              · cases h

example (f : Request → Nat) := C317_post ⟨none, 7⟩ f f f f f f 1 2 3 (namedUrl ['r', 'e', 'p', 'l'] true) none none _ none rfl

example : dispatch (monitorRoutes (fun _ => 0) (fun _ => 1) (fun _ => 2) (fun _ => 3) ++ baseRoutes ⟨none, 7⟩ (fun _ => 4) (fun _ => 5) 6 7 8)
    ⟨.post, namedUrl ['r', 'e', 'p', 'l'] true, none, none⟩ = (.ran (1 : Nat) none) := rfl

/-! ## C51: feature urls -/

theorem hex_facts (n : Nat) (h : n < 16) : hexVal (hexDigit n) = some n ∧ hexDigit n ≠ '/' ∧ hexDigit n ≠ '%' := by
  have : n = 0 ∨ n = 1 ∨ n = 2 ∨ n = 3 ∨ n = 4 ∨ n = 5 ∨ n = 6 ∨ n = 7 ∨ n = 8 ∨ n = 9 ∨ n = 10 ∨ n = 11 ∨ n = 12 ∨
    n = 13 ∨ n = 14 ∨ n = 15 := by omega
  rcases this with h | h | h | h | h | h | h | h | h | h | h | h | h | h | h | h <;> subst h <;> decide

theorem unreserved_lt (b : UInt8) (h : unreserved b = true) :
    b.toNat < 128 ∧ b.toNat ≠ 47 ∧ b.toNat ≠ 37 := by
  simp only [unreserved, Bool.or_eq_true, Bool.and_eq_true, decide_eq_true_eq, beq_iff_eq, UInt8.le_iff_toNat_le] at h
  have e (x : UInt8) (hx : b = x) : b.toNat = x.toNat := by rw [hx]
  have h1 : (65 : UInt8).toNat = 65 := rfl
  have h2 : (90 : UInt8).toNat = 90 := rfl
  have h3 : (97 : UInt8).toNat = 97 := rfl
  have h4 : (122 : UInt8).toNat = 122 := rfl
  have h5 : (48 : UInt8).toNat = 48 := rfl
  have h6 : (57 : UInt8).toNat = 57 := rfl
  have h7 : (95 : UInt8).toNat = 95 := rfl
  have h8 : (46 : UInt8).toNat = 46 := rfl
  have h9 : (45 : UInt8).toNat = 45 := rfl
  have h10 : (126 : UInt8).toNat = 126 := rfl
  rcases h with (((((h | h) | h) | h) | h) | h) | h
  · omega
  · omega
  · omega
  · have := e _ h; omega
  · have := e _ h; omega
  · have := e _ h; omega
  · have := e _ h; omega

theorem ofNat_toNat_lt {n : Nat} (h : n < 128) : (Char.ofNat n).toNat = n := by
  have hv : n.isValidChar := Or.inl (by omega)
  simp [Char.ofNat, hv, Char.ofNatAux, Char.toNat]

theorem unquote_plain (c : Char) (rest : List Char) (h : c ≠ '%') :
    unquote (c :: rest) = UInt8.ofNat c.toNat :: unquote rest := by
  rw [unquote]
  intro a b r hc
  exact absurd hc h

theorem unquote_hex (a b : Char) (rest : List Char) (x y : Nat) (ha : hexVal a = some x) (hb : hexVal b = some y) :
    unquote ('%' :: a :: b :: rest) = UInt8.ofNat (16 * x + y) :: unquote rest := by
  rw [unquote, ha, hb]

/-- **C51, quoting is lossless**: unquoting a quoted id gives back its bytes, for every byte string. -/
theorem C51_unquote_quote (id : List UInt8) : unquote (quote id) = id := by
  induction id with
  | nil => rw [quote, unquote]
  | cons b bs ih =>
    rw [quote]
    by_cases h : unreserved b
    · obtain ⟨h1, h2, h3⟩ := unreserved_lt b h
      rw [if_pos h]
      have hne : Char.ofNat b.toNat ≠ '%' := by
        intro he
        have := congrArg Char.toNat he
        rw [ofNat_toNat_lt h1] at this
        exact h3 this
      rw [List.singleton_append, unquote_plain _ _ hne, ih, ofNat_toNat_lt h1]
      simp
    · rw [if_neg h]
      have hb := b.toNat_lt
      have f1 := (hex_facts (b.toNat / 16) (by omega)).1
      have f2 := (hex_facts (b.toNat % 16) (by omega)).1
      have : ['%', hexDigit (b.toNat / 16), hexDigit (b.toNat % 16)] ++ quote bs =
        '%' :: hexDigit (b.toNat / 16) :: hexDigit (b.toNat % 16) :: quote bs := rfl
      rw [this, unquote_hex _ _ _ _ _ f1 f2, ih]
      have e : 16 * (b.toNat / 16) + b.toNat % 16 = b.toNat := by omega
      rw [e]; simp

theorem quote_no_slash (id : List UInt8) : '/' ∉ quote id := by
  induction id with
  | nil => simp [quote]
  | cons b bs ih =>
    rw [quote, List.mem_append, not_or]
    refine ⟨?_, ih⟩
    by_cases h : unreserved b
    · obtain ⟨h1, h2, h3⟩ := unreserved_lt b h
      rw [if_pos h]
      simp only [List.mem_singleton]
      intro he
      have := congrArg Char.toNat he
      rw [ofNat_toNat_lt h1] at this
      exact h2 this.symm
    · rw [if_neg h]
      have hb := b.toNat_lt
      have f1 := (hex_facts (b.toNat / 16) (by omega)).2.1
      have f2 := (hex_facts (b.toNat % 16) (by omega)).2.1
      simp only [List.mem_cons, List.not_mem_nil, or_false, not_or]
      exact ⟨by decide, fun e => f1 e.symm, fun e => f2 e.symm⟩

theorem twoGroups_noslash (acc a rest : List Char) (hne : acc ++ a ≠ []) (ha : '/' ∉ a) (hr : rest ≠ []) :
    twoGroups acc (a ++ '/' :: rest) = some (acc ++ a, stripSlash rest) := by
  induction a generalizing acc with
  | nil =>
    have : acc ≠ [] := by simpa using hne
    simp [twoGroups, this, hr]
  | cons c cs ih =>
    have hc : c ≠ '/' := fun e => ha (by simp [e])
    simp only [List.cons_append, twoGroups, hc, false_and, and_false, if_false]
    rw [ih (acc ++ [c]) (by simp) (fun h => ha (by simp [h]))]
    simp

theorem dropPrefix?_append (p s : List Char) : dropPrefix? p (p ++ s) = some s := by
  induction p with
  | nil => simp [dropPrefix?]
  | cons c cs ih => simp [dropPrefix?, ih]

theorem quote_ne_nil {id : List UInt8} (h : id ≠ []) : quote id ≠ [] := by
  cases id with
  | nil => exact absurd rfl h
  | cons b bs => rw [quote]; split <;> simp

/-- **C51, round trip**: with the default base path, the url of any document id (any bytes at all, slashes and percent signs
included) and any feature name not ending in a slash is matched by the feature route, and the handler receives exactly that
id, and that feature. -/
theorem C51_roundtrip (id : List UInt8) (feature : List Char) (hid : id ≠ []) (hf : feature ≠ [])
    (hslash : feature.getLast? ≠ some '/') :
    featureMatch (featurePath zoundsText id feature) = some (quote id, feature) ∧
    featureArgs (featurePath zoundsText id feature) = some (id, unquote feature) := by
  have h : featureMatch (featurePath zoundsText id feature) = some (quote id, feature) := by
    unfold featureMatch featurePath
    rw [List.append_assoc, dropPrefix?_append]
    simp only
    rw [twoGroups_noslash [] (quote id) feature (by simpa using quote_ne_nil hid) (quote_no_slash id) hf]
    simp [stripSlash, hslash]
  refine ⟨h, ?_⟩
  rw [featureArgs, h]
  simp [C51_unquote_quote]

example := C51_roundtrip [47, 97, 37] ['b', 'a', 'r', 'k'] (by decide) (by decide) (by decide)

/-- **C51, two documents never share a url.** -/
theorem C51_injective (base : List Char) (id id' : List UInt8) (feature : List Char)
    (h : featurePath base id feature = featurePath base id' feature) : id = id' := by
  unfold featurePath at h
  rw [List.append_assoc, List.append_assoc] at h
  have h2 := List.append_cancel_left h
  have h3 := List.append_cancel_right h2
  rw [← C51_unquote_quote id, h3, C51_unquote_quote]

/-- **C51, dispatch in the REPL and monitor applications**: the url is handled by the feature handler, unless the (quoted) id is
`temp`. -/
theorem C51_dispatch (app : App) (temp repl training graph ui feat : Request → R) (page un home : R)
    (id : List UInt8) (feature : List Char) (hid : id ≠ []) (hf : feature ≠ [])
    (hslash : feature.getLast? ≠ some '/') (htemp : quote id ≠ ['t', 'e', 'm', 'p']) (c sec) :
    dispatch (monitorRoutes temp repl training graph ++ baseRoutes app ui feat page un home)
      ⟨.get, featurePath zoundsText id feature, c, sec⟩ =
      .ran (feat ⟨.get, featurePath zoundsText id feature, c, sec⟩) none := by
  have hm := (C51_roundtrip id feature hid hf hslash).1
  have hdp := dropPrefix?_append zoundsText (quote id ++ '/' :: feature)
  have hq0 := quote_ne_nil hid
  have hqs := quote_no_slash id
  have hnamed : ∀ name : List Char, '/' ∉ name → namedMatch name (featurePath zoundsText id feature) = false := by
    intro name hname
    unfold namedMatch featurePath
    rw [List.append_assoc, List.append_assoc]
    have e1 : (zoundsText ++ (quote id ++ '/' :: feature) == zoundsText ++ name) = false := by
      rw [beq_eq_false_iff_ne]
      intro h
      have h := List.append_cancel_left h
      apply hname; rw [← h]; simp
    have e2 : (zoundsText ++ (quote id ++ '/' :: feature) == zoundsText ++ (name ++ ['/'])) = false := by
      rw [beq_eq_false_iff_ne]
      intro h
      have h := List.append_cancel_left h
      have h3 : (quote id ++ ['/']) ++ feature = name ++ ['/'] := by simpa using h
      have h4 := congrArg List.getLast? h3
      rw [List.getLast?_append_of_ne_nil _ hf] at h4
      simp at h4
      exact hslash h4
    rw [e1, e2]; rfl
  have htmp : tempMatch (featurePath zoundsText id feature) = none := by
    have hgen : ∀ (q rest : List Char), '/' ∉ q → q ≠ ['t', 'e', 'm', 'p'] →
        dropPrefix? ['t', 'e', 'm', 'p', '/'] (q ++ '/' :: rest) = none := by
      intro q rest hq hne
      match q with
      | [] => simp [dropPrefix?]
      | [a] =>
        simp only [List.cons_append, List.nil_append, dropPrefix?]
        split <;> simp
      | [a, b] =>
        simp only [List.cons_append, List.nil_append, dropPrefix?]
        split <;> (try rfl)
        split <;> simp
      | [a, b, c] =>
        simp only [List.cons_append, List.nil_append, dropPrefix?]
        split <;> (try rfl)
        split <;> (try rfl)
        split <;> simp
      | [a, b, c, d] =>
        simp only [List.cons_append, List.nil_append, dropPrefix?]
        split <;> (try rfl)
        split <;> (try rfl)
        split <;> (try rfl)
        split <;> (try rfl)
        rename_i h1 h2 h3 h4
        exact absurd (by rw [h1, h2, h3, h4]) hne
      | a :: b :: c :: d :: e :: more =>
        simp only [List.cons_append, dropPrefix?]
        split <;> (try rfl)
        split <;> (try rfl)
        split <;> (try rfl)
        split <;> (try rfl)
        split <;> (try rfl)
        rename_i h5
        exact absurd (by simp [← h5]) hq
    unfold tempMatch
    have hpre : ∀ (p s t : List Char), dropPrefix? (p ++ s) (p ++ t) = dropPrefix? s t := by
      intro p s t
      induction p with
      | nil => rfl
      | cons c cs ih => simp [dropPrefix?, ih]
    have : featurePath zoundsText id feature = zoundsText ++ (quote id ++ '/' :: feature) := by simp [featurePath]
    rw [this, hpre, hgen _ _ hqs htemp]
  have hroot : (featurePath zoundsText id feature == ['/']) = false := by
    rw [beq_eq_false_iff_ne]
    intro h
    have := congrArg List.length h
    simp [featurePath, zoundsText] at this
  have n1 := hnamed ['r', 'e', 'p', 'l'] (by decide)
  have n2 := hnamed ['t', 'r', 'a', 'i', 'n', 'i', 'n', 'g'] (by decide)
  have n3 := hnamed ['g', 'r', 'a', 'p', 'h'] (by decide)
  simp only [monitorRoutes, replRoutes, baseRoutes, List.cons_append, List.nil_append, dispatch, htmp, n1, n2, n3, hroot, hm,
    Option.isSome_none, Option.isSome_some, if_true, if_false, getOnly, Bool.false_eq_true]

example (f : Request → Nat) := C51_dispatch ⟨none, 7⟩ f f f f f f 1 2 3 [47, 97, 37] ['b', 'a', 'r', 'k'] (by decide) (by decide) (by decide) (by decide) none none

/-- **C51, refuted for the id `temp`**: its features are never reachable in the REPL and monitor applications; the temporary
result handler answers instead. -/
theorem C51_temp_refuted (app : App) (temp repl training graph ui feat : Request → R) (page un home : R)
    (feature : List Char) (hf : feature ≠ []) (c sec) :
    dispatch (monitorRoutes temp repl training graph ++ baseRoutes app ui feat page un home)
      ⟨.get, featurePath zoundsText [116, 101, 109, 112] feature, c, sec⟩ =
      .ran (temp ⟨.get, featurePath zoundsText [116, 101, 109, 112] feature, c, sec⟩) none := by
  have hq : quote [116, 101, 109, 112] = ['t', 'e', 'm', 'p'] := by decide
  have : featurePath zoundsText [116, 101, 109, 112] feature = (zoundsText ++ ['t', 'e', 'm', 'p', '/']) ++ feature := by
    simp [featurePath, hq]
  have hm : (tempMatch (featurePath zoundsText [116, 101, 109, 112] feature)).isSome = true := by
    rw [this, tempMatch, dropPrefix?_append]
    cases feature with
    | nil => exact absurd rfl hf
    | cons a b => rfl
  simp only [monitorRoutes, replRoutes, List.cons_append, dispatch, hm, if_true, getOnly]

/-- **C51, refuted for other base paths**: the urls are built from `base_path`, but the routes are fixed to `/zounds/`: with a
base path that does not start with `/zounds/`, no feature url is ever matched.  `/zounds` without the final slash, the default of
the training monitors, is such a path. -/
theorem C51_base_path_refuted (base : List Char) (id : List UInt8) (feature : List Char) (hid : id ≠ [])
    (hb : base = ['/', 'z', 'o', 'u', 'n', 'd', 's'] ∨ ∃ c cs, base = '/' :: c :: cs ∧ c ≠ 'z') :
    featureMatch (featurePath base id feature) = none := by
  unfold featureMatch featurePath
  rcases hb with rfl | ⟨c, cs, rfl, hc⟩
  · cases hq : quote id with
    | nil => exact absurd hq (quote_ne_nil hid)
    | cons a as =>
      have ha : a ≠ '/' := fun e => quote_no_slash id (by simp [hq, e])
      have ha' : ¬ ('/' = a) := fun e => ha e.symm
      simp [dropPrefix?, zoundsText, ha']
  · have hc' : ¬ ('z' = c) := fun e => hc e.symm
    simp [dropPrefix?, zoundsText, hc']

/-! ## C52: training history -/

/-- All callbacks of a training run, for one key. -/
def collectAll {V : Type} (frequency n : Nat) : List V → List (Nat × Option V) → List V
  | h, [] => h
  | h, (b, v) :: rest => collectAll frequency n (collect frequency n h b v) rest

/-- Specification: the values reported on the sampled batches, in order. -/
def reported {V : Type} (frequency : Nat) : List (Nat × Option V) → List V
  | [] => []
  | (b, v) :: rest => (if b % frequency = 0 then v.toList else []) ++ reported frequency rest

theorem collect_suffix {V : Type} (frequency n : Nat) (h : List V) (b : Nat) (v : Option V) :
    ∃ pre, pre ++ collect frequency n h b v = h ++ (if b % frequency = 0 then v.toList else []) := by
  unfold collect
  by_cases hb : b % frequency = 0
  · simp only [hb, ne_eq, not_true_eq_false, if_false, if_true]
    by_cases hn : n = 0
    · refine ⟨[], ?_⟩
      cases v <;> simp [hn]
    · refine ⟨h.take (h.length - n), ?_⟩
      cases v with
      | none => simp [hn]
      | some x => simp only [hn, if_false, Option.toList_some, ← List.append_assoc, List.take_append_drop]
  · exact ⟨[], by simp [hb]⟩

theorem collectAll_suffix {V : Type} (frequency n : Nat) (h : List V) (cs : List (Nat × Option V)) :
    ∃ pre, pre ++ collectAll frequency n h cs = h ++ reported frequency cs := by
  induction cs generalizing h with
  | nil => exact ⟨[], by simp [collectAll, reported]⟩
  | cons c cs ih =>
    obtain ⟨b, v⟩ := c
    obtain ⟨p1, h1⟩ := collect_suffix frequency n h b v
    obtain ⟨p2, h2⟩ := ih (collect frequency n h b v)
    refine ⟨p1 ++ p2, ?_⟩
    simp only [collectAll, reported]
    rw [List.append_assoc, h2, ← List.append_assoc, h1, List.append_assoc]

/-- **C52, the history is the recent past**: after any run the history of a key is a suffix of the values reported for it, in
order: only the oldest points are ever dropped. -/
theorem C52_recent {V : Type} (frequency n : Nat) (cs : List (Nat × Option V)) :
    collectAll frequency n [] cs <:+ reported frequency cs := by
  obtain ⟨pre, h⟩ := collectAll_suffix frequency n [] cs
  exact ⟨pre, by simpa using h⟩

/-- **C52, bounded**: with a positive number of points to keep, the history never holds more than one more than that. -/
theorem C52_bounded {V : Type} (frequency n : Nat) (hn : 0 < n) (cs : List (Nat × Option V)) :
    (collectAll frequency n [] cs).length ≤ n + 1 := by
  have gen : ∀ (cs : List (Nat × Option V)) (h : List V), h.length ≤ n + 1 →
      (collectAll frequency n h cs).length ≤ n + 1 := by
    intro cs
    induction cs with
    | nil => intro h hh; exact hh
    | cons c cs ih =>
      intro h hh
      obtain ⟨b, v⟩ := c
      simp only [collectAll]
      apply ih
      unfold collect
      split
      · exact hh
      · have h0 : ¬ n = 0 := by omega
        cases v <;> simp [h0] <;> omega
  exact gen cs [] (by simp)

example := C52_bounded (V := Nat) 2 3 (by decide) [(0, some 1), (1, none), (2, some 4)]

/-- **C52, refuted**: the history is cut before the new point is added, so it settles at one more than the number of points asked
for; and asking for zero points keeps all of them. -/
theorem C52_exact_refuted :
    (collectAll 1 2 [] [(0, some 10), (1, some 11), (2, some 12), (3, some 13)]).length = 3 ∧
    ∀ (cs : List (Nat × Option Nat)), collectAll 1 0 [] cs = reported 1 cs := by
  refine ⟨by decide, ?_⟩
  have gen : ∀ (cs : List (Nat × Option Nat)) (h : List Nat), collectAll 1 0 h cs = h ++ reported 1 cs := by
    intro cs
    induction cs with
    | nil => intro h; simp [collectAll, reported]
    | cons c cs ih =>
      intro h
      obtain ⟨b, v⟩ := c
      simp only [collectAll, reported, ih, collect, Nat.mod_one]
      cases v <;> simp
  intro cs
  simpa using gen cs []

-- concrete instances of the hypotheses
example : featurePath zoundsText [47, 97, 37] ['b', 'a', 'r', 'k'] =
    ['/', 'z', 'o', 'u', 'n', 'd', 's', '/', '%', '2', 'F', 'a', '%', '2', '5', '/', 'b', 'a', 'r', 'k'] := by decide
example : featureMatch (zoundsText ++ ['a', '/', 'b', '/']) = some (['a'], ['b']) := by decide
example (app : App) (hs : app.secret = some ['x']) (f : Request → Nat) :
    ∀ o ∈ session (makeApp app (monitorRoutes f f f f) (baseRoutes app f f 1 2 3)) none
      [fun jar => ⟨.post, zoundsText ++ loginText, jar, some ['y']⟩, fun jar => ⟨.get, ['/'], jar, none⟩],
      ¬ o.invoked ∨ (o = .ran 1 none ∨ o = .ran 2 none) :=
  C47_sessions app ['x'] hs (by decide) _ (C47_library_routes f f f f) f f 1 2 3 _
    (by intro g hg jar c hc
        simp at hg
        rcases hg with rfl | rfl <;> exact Or.inl hc.symm)
    (by intro g hg jar s' hs'
        simp at hg
        rcases hg with rfl | rfl
        · simp at hs'; subst hs'; rw [hs]; decide
        · simp at hs')
example : loginText <:+: (['/', 'b'] ++ loginText ++ ['s'] : List Char) := ⟨['/', 'b'], ['s'], rfl⟩


/-- **C51, lower-case escapes**: an id percent-encoded with lower-case digits decodes to the same byte as with upper-case ones. -/
theorem C51_lower_case (x y : Nat) (hx : x < 16) (hy : y < 16) (rest : List Char) :
    unquote ('%' :: (if x < 10 then Char.ofNat (48 + x) else Char.ofNat (87 + x)) ::
      (if y < 10 then Char.ofNat (48 + y) else Char.ofNat (87 + y)) :: rest) =
        UInt8.ofNat (16 * x + y) :: unquote rest := by
  have key : ∀ z, z < 16 → hexVal (if z < 10 then Char.ofNat (48 + z) else Char.ofNat (87 + z)) = some z := by decide
  exact unquote_hex _ _ _ _ _ (key x hx) (key y hy)

example : unquote ['%', '4', 'f'] = [0x4f] := by
  have := C51_lower_case 4 15 (by decide) (by decide) []
  simpa [unquote] using this

end Zounds.Web
