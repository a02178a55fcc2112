import Verif.Lib.Map
import Verif.Lib.Dec
import Verif.Lib.Coins
import Verif.Lib.Genesis
import Verif.Team.Model
import Verif.Team.Spec
import Verif.Team.Lemmas
import Verif.Team.Inv
import Verif.Team.Issue
import Verif.Team.Properties
import Verif.Global.Model
import Verif.Global.Properties
import Verif.Keys.Model
import Verif.Keys.Properties
import Verif.Pool.Model
import Verif.Pool.Properties
import Verif.Funders.Model
import Verif.Funders.Lemmas
import Verif.Funders.Inv
import Verif.Funders.Properties
import Verif.Delegation.F1
import Verif.Delegation.F1Spec
import Verif.Delegation.F1Inv
import Verif.Delegation.F1Bal
import Verif.Delegation.F1Fair
import Verif.Delegation.F1Ledger
import Verif.Delegation.F1Props
import Verif.Delegation.Model
import Verif.Delegation.Spec
import Verif.Delegation.Ops
import Verif.Delegation.Inv
import Verif.Delegation.Queue
import Verif.Delegation.Spells
import Verif.Delegation.Properties
import Verif.Delegation.QueueProps
import Verif.Delegation.Solvency
import Verif.Delegation.Examples
import Verif.Delegation.Genesis
import Verif.Stakers.Model
import Verif.Stakers.Spec
import Verif.Stakers.Mem
import Verif.Stakers.Queue
import Verif.Stakers.Leaves
import Verif.Stakers.Inv
import Verif.Stakers.Properties
import Verif.Stakers.Examples
import Verif.Stakers.Genesis
import Verif.Bundles.RoundRobin
import Verif.Bundles.RRLemmas
import Verif.Bundles.RRProps
import Verif.Bundles.Model
import Verif.Bundles.Votes
import Verif.Bundles.Payout
import Verif.Bundles.Inflation
import Verif.Bundles.Lookup
import Verif.Chain.Model
import Verif.Chain.Access
import Verif.Chain.Sample
import Verif.Chain.Frames
import Verif.Chain.Micro
import Verif.Chain.Steps
import Verif.Chain.Project
import Verif.Chain.Invariant
import Verif.Chain.SampleReach
import Verif.Chain.Points
import Verif.Chain.Apart
import Verif.Chain.Rounds
import Verif.Chain.Voting
import Verif.Chain.History
import Verif.Chain.Money
import Verif.Chain.EndBlock
import Verif.Chain.Plain
import Verif.Chain.Bills
import Verif.Chain.Judge
import Verif.Chain.Stake
import Verif.Chain.Slashing
import Verif.Chain.Uploaders
import Verif.Chain.Pools
import Verif.Query.Pagination
import Verif.Query.Answers
import Verif.Query.Account
import Verif.Chain.Governance
import Verif.Chain.Whitelist
import Verif.Team.Genesis
import Verif.Pool.Genesis
import Verif.Funders.Genesis
import Verif.Bundles.Genesis
import Verif.Chain.Genesis
import Verif.Team.Query
import Verif.Delegation.Homes
import Verif.Chain.Homes
import Verif.Chain.Inflation
import Verif.Query.Client
import Verif.Query.Delegators
import Verif.Chain.Placed
import Verif.Funders.Totals
import Verif.Query.Stakers
import Verif.Query.Pools
import Verif.Query.Funders
import Verif.Query.Bundles
import Verif.Upgrade.V15
import Verif.Upgrade.Properties
import Verif.Upgrade.Examples
import Verif.Upgrade.Proposals
import Verif.Chain.Turns
import Verif.Chain.Own
import Verif.Delegation.Earned
import Verif.Chain.Holdings
import Verif.Chain.Fundings
import Verif.Chain.Commission
import Verif.Chain.Places
import Verif.Chain.Running
import Verif.Chain.Exits
import Verif.Funders.Terms
import Verif.Chain.Terms
import Verif.Funders.Score
import Verif.Delegation.Matured
import Verif.Chain.Queues
import Verif.Chain.Delegating
import Verif.Lib.Supply
import Verif.Chain.Supply
import Verif.Chain.Crash
import Verif.Global.Priority
import Verif.Chain.Spending
import Verif.App.Model
import Verif.App.Project
import Verif.App.Accounts
import Verif.App.Properties
import Verif.App.TeamView
import Verif.Team.Required
import Verif.App.Begin
import Verif.App.Sample
import Verif.Bundles.RRStart
import Verif.Chain.Creation
import Verif.Chain.Erase
import Verif.Chain.Alike
import Verif.Chain.AlikeOps
import Verif.Chain.AlikeRun
import Verif.Chain.Votes
import Verif.Chain.Order
import Verif.App.Extra
import Verif.Chain.Isolated
import Verif.Bundles.GoMaps
import Verif.Chain.Rotation
import Verif.Chain.Honest
import Verif.Chain.Ballot
import Verif.Chain.Progress
import Verif.Chain.Repeat
import Verif.App.Gas
import Verif.Chain.Events
import Verif.Chain.RoundTrip
import Verif.Chain.Lasting
import Verif.Chain.Profiles
import Verif.Chain.Log
import Verif.Chain.Follow
import Verif.Chain.Told
import Verif.Chain.Earned
import Verif.Chain.Asleep
import Verif.App.Asleep
import Verif.Chain.Several
import Verif.App.Resting
