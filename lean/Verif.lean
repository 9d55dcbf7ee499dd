import Verif.Checks.RepoTests
import Verif.Lemmas.Alternations
import Verif.Lemmas.Canonical
import Verif.Lemmas.Encoding
import Verif.Lemmas.Graph
import Verif.Lemmas.Pattern
import Verif.Lemmas.PatternFind
import Verif.Lemmas.PatternLang
import Verif.Lemmas.PatternPlain
import Verif.Lemmas.PatternTexts
import Verif.Lemmas.ReRun
import Verif.Lemmas.Scripts
import Verif.Lemmas.Tree
import Verif.Lemmas.Words
import Verif.Model.Alternations
import Verif.Model.BilingualDict
import Verif.Model.CacheEdits
import Verif.Model.CacheObjects
import Verif.Model.CacheRace
import Verif.Model.CacheStack
import Verif.Model.CacheStamps
import Verif.Model.CacheStream
import Verif.Model.CacheTwice
import Verif.Model.Cached
import Verif.Model.CachedThreads
import Verif.Model.Common
import Verif.Model.Compare
import Verif.Model.Convert
import Verif.Model.Dates
import Verif.Model.DictFormat
import Verif.Model.DiskRec
import Verif.Model.Display
import Verif.Model.Encoding
import Verif.Model.EntryHeap
import Verif.Model.FileReadings
import Verif.Model.FilterArgs
import Verif.Model.FilterRow
import Verif.Model.Handles
import Verif.Model.IndexObjects
import Verif.Model.KanaObjects
import Verif.Model.KanaTable
import Verif.Model.KanaVoiced
import Verif.Model.KanjiList
import Verif.Model.Kanjidic
import Verif.Model.LayoutDepth
import Verif.Model.LineIter
import Verif.Model.LoadOptions
import Verif.Model.Maps
import Verif.Model.MapsHeap
import Verif.Model.MapsState
import Verif.Model.MemoryRec
import Verif.Model.MemoryThreads
import Verif.Model.PatternText
import Verif.Model.Pinyin
import Verif.Model.Place
import Verif.Model.PlaceAppend
import Verif.Model.PlaceEqual
import Verif.Model.PlaceHeap
import Verif.Model.PlaceText
import Verif.Model.PlaceWalks
import Verif.Model.PrintRadicals
import Verif.Model.Radkdict
import Verif.Model.ReaderThreads
import Verif.Model.ReaderViews
import Verif.Model.Readers
import Verif.Model.RowGens
import Verif.Model.Scripts
import Verif.Model.SentHooks
import Verif.Model.SmartCache
import Verif.Model.Sources
import Verif.Model.SplitByCodes
import Verif.Model.Tatoeba
import Verif.Model.Tree
import Verif.Model.TreeAsk
import Verif.Model.TreeCombine
import Verif.Model.TreeEqual
import Verif.Model.TreeGiven
import Verif.Model.TreeLayout
import Verif.Model.TreeWalks
import Verif.Model.Zhuyin
import Verif.Props.Alternations
import Verif.Props.AlternationsClosed
import Verif.Props.BilingualDict
import Verif.Props.BilingualUpdate
import Verif.Props.BothKana
import Verif.Props.CacheEdits
import Verif.Props.CacheEnds
import Verif.Props.CacheExact
import Verif.Props.CacheObjects
import Verif.Props.CacheRace
import Verif.Props.CacheStack
import Verif.Props.CacheStamps
import Verif.Props.CacheStream
import Verif.Props.CacheTwice
import Verif.Props.CacheWriter
import Verif.Props.Cached
import Verif.Props.CachedThreads
import Verif.Props.CjKdicExact
import Verif.Props.CommentLines
import Verif.Props.Common
import Verif.Props.Compare
import Verif.Props.Convert
import Verif.Props.Csv
import Verif.Props.CsvExact
import Verif.Props.CsvFile
import Verif.Props.CsvWritten
import Verif.Props.CustomErrors
import Verif.Props.Dates
import Verif.Props.DictFormat
import Verif.Props.DictGrammar
import Verif.Props.DictLines
import Verif.Props.DictLoad
import Verif.Props.DictSaved
import Verif.Props.DiskRec
import Verif.Props.Display
import Verif.Props.Encoding
import Verif.Props.EntryExact
import Verif.Props.EntryHeap
import Verif.Props.ExactMore
import Verif.Props.ExactPartials
import Verif.Props.ExpandAgain
import Verif.Props.Export
import Verif.Props.ExportKinds
import Verif.Props.FileOrder
import Verif.Props.FileReadings
import Verif.Props.FilterArgs
import Verif.Props.FilterLoad
import Verif.Props.FilterRow
import Verif.Props.GroupsSaved
import Verif.Props.HandleResults
import Verif.Props.Handles
import Verif.Props.HanziFile
import Verif.Props.HanziForms
import Verif.Props.IndexObjects
import Verif.Props.IndexSaved
import Verif.Props.Joined
import Verif.Props.JoinedLinks
import Verif.Props.KanaConvert
import Verif.Props.KanaForms
import Verif.Props.KanaObjects
import Verif.Props.KanaSort
import Verif.Props.KanaSurface
import Verif.Props.KanaTable
import Verif.Props.KanaVoiced
import Verif.Props.Kanjidic
import Verif.Props.KanjidicOrder
import Verif.Props.KanjidicSaved
import Verif.Props.LayoutDepth
import Verif.Props.LineIter
import Verif.Props.LinkNames
import Verif.Props.LinkOrder
import Verif.Props.LongVowels
import Verif.Props.MapLaws
import Verif.Props.Maps
import Verif.Props.MapsHeap
import Verif.Props.MapsState
import Verif.Props.MarkedPinyin
import Verif.Props.MemoryRec
import Verif.Props.MemoryThreads
import Verif.Props.MergeLaws
import Verif.Props.NormalKana
import Verif.Props.PatternFormat
import Verif.Props.PatternSyllables
import Verif.Props.PatternSyntax
import Verif.Props.PatternText
import Verif.Props.Pieces
import Verif.Props.PiecesPinyin
import Verif.Props.Pinyin
import Verif.Props.PinyinTones
import Verif.Props.PinyinZhuyin
import Verif.Props.Place
import Verif.Props.PlaceAgain
import Verif.Props.PlaceAppend
import Verif.Props.PlaceBytes
import Verif.Props.PlaceEqual
import Verif.Props.PlaceFiles
import Verif.Props.PlaceFound
import Verif.Props.PlaceHeap
import Verif.Props.PlaceInit
import Verif.Props.PlaceLoops
import Verif.Props.PlaceOutline
import Verif.Props.PlaceText
import Verif.Props.PlaceWalks
import Verif.Props.PrintRadicals
import Verif.Props.Procmap
import Verif.Props.PruneTwice
import Verif.Props.RadkSaved
import Verif.Props.Radkdict
import Verif.Props.ReaderOrder
import Verif.Props.ReaderThreads
import Verif.Props.ReaderViews
import Verif.Props.Readers
import Verif.Props.ReadersTogether
import Verif.Props.RepeatedLinks
import Verif.Props.RowGens
import Verif.Props.ScriptMapping
import Verif.Props.ScriptStructure
import Verif.Props.Scripts
import Verif.Props.SentHooks
import Verif.Props.SentencesSaved
import Verif.Props.SmartCache
import Verif.Props.Sources
import Verif.Props.SplitByCodes
import Verif.Props.Tanaka
import Verif.Props.TanakaText
import Verif.Props.TatoebaErrors
import Verif.Props.TatoebaLinks
import Verif.Props.TatoebaLinksIff
import Verif.Props.TatoebaSentences
import Verif.Props.TextFiles
import Verif.Props.ThreadProgress
import Verif.Props.ToneMarks
import Verif.Props.TreeAlike
import Verif.Props.TreeAsk
import Verif.Props.TreeCombine
import Verif.Props.TreeCopy
import Verif.Props.TreeDist
import Verif.Props.TreeDistAgain
import Verif.Props.TreeDistCalls
import Verif.Props.TreeDistEnds
import Verif.Props.TreeDraw
import Verif.Props.TreeEq
import Verif.Props.TreeEqual
import Verif.Props.TreeExact
import Verif.Props.TreeFrame
import Verif.Props.TreeGiven
import Verif.Props.TreeLayout
import Verif.Props.TreeLoops
import Verif.Props.TreeOps
import Verif.Props.TreePrograms
import Verif.Props.TreePrune
import Verif.Props.TreeRemove
import Verif.Props.TreeWalk
import Verif.Props.TreeWalks
import Verif.Props.TypedPinyin
import Verif.Props.Zhuyin
import Verif.Props.ZhuyinSaved
import Verif.Py.Base
import Verif.Py.Call
import Verif.Py.Csv
import Verif.Py.CsvDialect
import Verif.Py.Dict
import Verif.Py.Exc
import Verif.Py.Lines
import Verif.Py.Num
import Verif.Py.Pattern
import Verif.Py.Re
import Verif.Py.ReGroup
import Verif.Py.Set
import Verif.Py.Split
import Verif.Py.Strip
import Verif.Py.Unicode
import Verif.Spec.Alternations
import Verif.Spec.BilingualDict
import Verif.Spec.CacheEdits
import Verif.Spec.CacheRace
import Verif.Spec.CacheStack
import Verif.Spec.CacheStamps
import Verif.Spec.CacheStream
import Verif.Spec.Canonical
import Verif.Spec.CsvFile
import Verif.Spec.CsvWritten
import Verif.Spec.CustomFormat
import Verif.Spec.Dates
import Verif.Spec.DictFormat
import Verif.Spec.DictLine
import Verif.Spec.DiskRec
import Verif.Spec.Encoding
import Verif.Spec.EntryHeap
import Verif.Spec.Export
import Verif.Spec.FileOrder
import Verif.Spec.FileReadings
import Verif.Spec.Graph
import Verif.Spec.IndexObjects
import Verif.Spec.KanaTable
import Verif.Spec.Kanjidic
import Verif.Spec.LayoutDepth
import Verif.Spec.MemoryRec
import Verif.Spec.PatternSyntax
import Verif.Spec.Pinyin
import Verif.Spec.Place
import Verif.Spec.PlaceOutline
import Verif.Spec.PlaceWalks
import Verif.Spec.Radkdict
import Verif.Spec.ReaderThreads
import Verif.Spec.ReaderViews
import Verif.Spec.Regex
import Verif.Spec.RowGens
import Verif.Spec.Scripts
import Verif.Spec.SentHooks
import Verif.Spec.SmartCache
import Verif.Spec.Sources
import Verif.Spec.SplitByCodes
import Verif.Spec.Tatoeba
import Verif.Spec.TatoebaErrors
import Verif.Spec.TextFile
import Verif.Spec.Tree
import Verif.Spec.TreeDistCalls
import Verif.Spec.TreeEq
import Verif.Spec.TreeEqual
import Verif.Spec.TreeLayout
import Verif.Spec.TreeLoops
import Verif.Spec.TreeOps
import Verif.Spec.TreeWalks
import Verif.Spec.TypedPinyin
import Verif.Spec.Words
