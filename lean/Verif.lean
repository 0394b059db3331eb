import Verif.Props.Sanitize
import Verif.Props.CachePath
import Verif.Props.Cache
import Verif.Props.Http
import Verif.Props.Wikipedia
import Verif.Props.Command
import Verif.Props.MathPictures
import Verif.Props.ImageFile
import Verif.Props.StatsJson
import Verif.Props.Characters
import Verif.Props.Workers
import Verif.Props.Concurrent
import Verif.Props.Config
import Verif.Props.References
import Verif.Props.EvaluateTemplates
import Verif.Props.PlainText
import Verif.Props.Requests
import Verif.Props.ImageRequests
import Verif.Props.Robust
import Verif.Props.Nesting
import Verif.Props.Cleaner
import Verif.Props.CleanLinks
import Verif.Props.CleanTemplates
import Verif.Props.Tokens
import Verif.Props.Headings
import Verif.Props.Nowiki
import Verif.Props.Expand
import Verif.Props.Html
import Verif.Props.Formatting
import Verif.Props.Paragraphs
import Verif.Props.Links
import Verif.Props.Lists
import Verif.Props.Tables
import Verif.Props.Epub
import Verif.Props.EpubErrors
import Verif.Props.Stats
import Verif.Props.StatsText
import Verif.Props.Output
import Verif.Props.Svg
import Verif.Props.ArticleStats
import Verif.Props.Images
import Verif.Props.Document
import Verif.Props.ImageSyntax
import Verif.Props.Termination
import Verif.Props.Pages
import Verif.Props.Formulas
import Verif.Props.Book
import Verif.Props.Hidden
import Verif.Props.TemplateArticle
import Verif.Props.Answers
import Verif.Props.ConfigFiles
import Verif.Props.FailedRequests
import Verif.Props.Offline
import Verif.Props.Regenerate
import Verif.Props.AnswerToPage
import Verif.Props.AnswersSent
import Verif.Props.AnyCache
import Verif.Props.Defaults
import Verif.Props.Digest
import Verif.Props.Tidy
import Verif.Props.Standalone
import Verif.Props.NowikiLines
import Verif.Props.UserAgent
import Verif.Props.Xml
import Verif.Props.Addresses
import Verif.Props.ImageAddresses
import Verif.Props.Titles
import Verif.Props.Initialize
import Verif.Props.Guards
import Verif.Props.Leftovers
import Verif.Props.StatsOutput
