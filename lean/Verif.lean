import Verif.Props.Ownership
import Verif.Props.Transfers
import Verif.Props.Balances
import Verif.Props.Batches
import Verif.Props.Limits
import Verif.Props.Approvals
import Verif.Props.Listings
import Verif.Props.Admin
import Verif.Props.Uploads
import Verif.Props.Metadata
import Verif.Props.Codec
import Verif.Props.Index
import Verif.Props.Consent
import Verif.Props.Client
import Verif.Props.Errors
import Verif.Props.Records
import Verif.Props.Reads
import Verif.Props.Web
import Verif.Props.Certify
import Verif.Props.Traffic
import Verif.Props.Audit
import Verif.Props.Answers
import Verif.Props.Independence
import Verif.Props.History
import Verif.Props.Book
import Verif.Props.Retry
import Verif.Props.Cache
import Verif.Props.KeyOrder
import Verif.Props.Liveness
import Verif.Props.Schedule
import Verif.Props.Justified
import Verif.Props.Repeats
import Verif.Props.Renaming
import Verif.Props.Spelling
import Verif.Props.MintSingles
import Verif.Props.Later
import Verif.Props.Rearranged
import Verif.Props.Words
import Verif.Props.Upgrades
import Verif.Props.Background
import Verif.Props.Footprint
import Verif.Props.Display
import Verif.Props.Moments
import Verif.Props.Permitted
import Verif.Props.Forgets
import Verif.Props.Roomier
import Verif.Props.Doors
import Verif.Props.Files
import Verif.Props.Renumber
import Verif.Props.Agree
import Verif.Props.Refusals
import Verif.Props.Backup
import Verif.Props.Undo
import Verif.Props.Lifecycle
import Verif.Props.Named
import Verif.Props.Announced
import Verif.Props.Consented
import Verif.Props.Custody
import Verif.Props.Chain
import Verif.Props.Commands
import Verif.Props.Strangers
import Verif.Props.EndToEnd
import Verif.Conformance.Icrc7
import Verif.Conformance.Icrc37
import Verif.Conformance.Management
import Verif.Conformance.Index
import Verif.Conformance.Units
import Verif.Conformance.Metadata
