import Verif.Model.Types
/-!
The account cache of the Rust client: lib/client/src/account_fetcher.rs.

Modelled: the cached accounts, the cached lists of the accounts of a program, the jobs in flight, which callers share, and clearing.

Simplified: the underlying fetcher is the environment: it answers a request at any later time with anything.  Everything done while the
mutex of the cache is held is one step; asking and starting to wait belong to the step of the call.  Keys of accounts and discriminators
are natural numbers, the contents of an account are values of an arbitrary type `D`.  Errors carry no message.  A call that waits for a job
returns when the job ends, which fixes what it returns; that it may be scheduled later is not seen.  Nobody gives up waiting.
-/
namespace OB
namespace Fetcher

/-- A program and the discriminator of the accounts wanted (account_fetcher.rs:139, 225). -/
abbrev Prog := Pubkey × Nat

/-- What is asked of the underlying fetcher. -/
inductive Req where
  | account (k : Pubkey)
  | program (p : Prog)
  deriving DecidableEq, Repr

/-- What a caller is given: accounts with their data, or an error.  For a single account the list has one entry. -/
abbrev Answer (D : Type) := Option (List (Pubkey × D))

/-- What can be seen from outside, in the order in which it happens. -/
inductive Event (D : Type) where
  /-- a caller calls -/
  | called (caller : Nat) (r : Req)
  /-- the underlying fetcher is asked -/
  | asked (r : Req)
  /-- the underlying fetcher has answered -/
  | answered (r : Req) (a : Answer D)
  /-- the call returns -/
  | returned (caller : Nat) (r : Req) (a : Answer D)
  /-- `clear_cache` -/
  | cleared
  deriving DecidableEq, Repr

/-- account_fetcher.rs:104-144, `AccountCache`; a job is the list of the callers that wait for it. -/
structure AccountCache (D : Type) where
  accounts : Pubkey → Option D
  keys : Prog → Option (List Pubkey)
  accountJobs : Pubkey → Option (List Nat)
  programJobs : Prog → Option (List Nat)

/-- account_fetcher.rs:168-173 -/
def AccountCache.new {D : Type} : AccountCache D :=
  { accounts := fun _ => none, keys := fun _ => none, accountJobs := fun _ => none, programJobs := fun _ => none }

/-- Insertion into and removal from a map. -/
def put {K V : Type} [DecidableEq K] (m : K → Option V) (k : K) (v : Option V) : K → Option V := fun x => if x = k then v else m x

/-- account_fetcher.rs:184-209 up to the `await`: return what is cached, join the job, or start one. -/
def fetch {D : Type} (s : AccountCache D) (c : Nat) (k : Pubkey) : AccountCache D × List (Event D) :=
  match s.accounts k with
  | some d => (s, [.called c (.account k), .returned c (.account k) (some [(k, d)])])
  | none =>
    match s.accountJobs k with
    | some ws => ({ s with accountJobs := put s.accountJobs k (some (ws ++ [c])) }, [.called c (.account k)])
    | none => ({ s with accountJobs := put s.accountJobs k (some [c]) }, [.called c (.account k), .asked (.account k)])

/-- account_fetcher.rs:228-233: the data of the keys of the list; `unwrap` panics if one of them is not cached. -/
def lookup {D : Type} (s : AccountCache D) : List Pubkey → Option (List (Pubkey × D))
  | [] => some []
  | k :: ks =>
    match s.accounts k, lookup s ks with
    | some d, some l => some ((k, d) :: l)
    | _, _ => none

/-- account_fetcher.rs:220-258 up to the `await`.  `none`: it panics. -/
def fetchProgram {D : Type} (s : AccountCache D) (c : Nat) (p : Prog) : Option (AccountCache D × List (Event D)) :=
  match s.keys p with
  | some ks =>
    match lookup s ks with
    | some l => some (s, [.called c (.program p), .returned c (.program p) (some l)])
    | none => none
  | none =>
    match s.programJobs p with
    | some ws => some ({ s with programJobs := put s.programJobs p (some (ws ++ [c])) }, [.called c (.program p)])
    | none => some ({ s with programJobs := put s.programJobs p (some [c]) }, [.called c (.program p), .asked (.program p)])

/-- account_fetcher.rs:194-206, 209-216: the job ends, its result is stored unless it is an error, and those waiting get it. -/
def accountArrives {D : Type} (s : AccountCache D) (k : Pubkey) (ws : List Nat) (a : Option D) : AccountCache D × List (Event D) :=
  let r : Answer D := a.map (fun d => [(k, d)])
  ({ s with accountJobs := put s.accountJobs k none
            accounts := match a with
              | some d => put s.accounts k (some d)
              | none => s.accounts },
   .answered (.account k) r :: ws.map (fun c => .returned c (.account k) r))

/-- account_fetcher.rs:239-256, 258-265: the same for a list of accounts; their data replace what was cached. -/
def programArrives {D : Type} (s : AccountCache D) (p : Prog) (ws : List Nat) (a : Answer D) : AccountCache D × List (Event D) :=
  ({ s with programJobs := put s.programJobs p none
            keys := match a with
              | some l => put s.keys p (some (l.map (·.1)))
              | none => s.keys
            accounts := match a with
              | some l => l.foldl (fun m x => put m x.1 (some x.2)) s.accounts
              | none => s.accounts },
   .answered (.program p) a :: ws.map (fun c => .returned c (.program p) a))

/-- account_fetcher.rs:146-151, 175-178: the jobs go on. -/
def clear {D : Type} (s : AccountCache D) : AccountCache D × List (Event D) :=
  ({ s with accounts := fun _ => none, keys := fun _ => none }, [.cleared])

/-- What can happen next. -/
inductive Step (D : Type) where
  | fetch (caller : Nat) (k : Pubkey)
  | fetchProgram (caller : Nat) (p : Prog)
  | account (k : Pubkey) (a : Option D)
  | program (p : Prog) (a : Answer D)
  | clear

/-- One step; an answer needs a job that waits for it.  `none`: impossible, or it panics. -/
def next {D : Type} (s : AccountCache D) : Step D → Option (AccountCache D × List (Event D))
  | .fetch c k => some (fetch s c k)
  | .fetchProgram c p => fetchProgram s c p
  | .account k a => (s.accountJobs k).map (fun ws => accountArrives s k ws a)
  | .program p a => (s.programJobs p).map (fun ws => programArrives s p ws a)
  | .clear => some (clear s)

/-- `h` is what has happened, newest first, until the cache is `s`. -/
inductive Runs {D : Type} : List (Event D) → AccountCache D → Prop
  | new : Runs [] .new
  | next (h : List (Event D)) (s s' : AccountCache D) (x : Step D) (es : List (Event D)) (hr : Runs h s) (hn : next s x = some (s', es)) :
      Runs (es.reverse ++ h) s'

end Fetcher
end OB
