import Verif.Base
import Verif.Post.Props
import Verif.Pre.Props
import Verif.Clean.Props
import Verif.Detach.Props
import Verif.Attach.Props
import Verif.Transfer.More
import Verif.Transfer.LoopProps
import Verif.Regex.Props
import Verif.Chunk.Word
import Verif.Chunk.Props
import Verif.Token.Props
import Verif.Bil.Pipeline
import Verif.Tagger.HmmProps
import Verif.Tagger.DiscardProps
import Verif.Tagger.StreamExamples
import Verif.Tagger.TrainProps
import Verif.Tagger.LswExamples
import Verif.Tagger.BaumWelchProps
import Verif.Unigram.Examples
import Verif.Mode.Props
import Verif.Mode.GenFiles
import Verif.Percep.TrainProps
import Verif.Percep.FeatureExamples
import Verif.Serial.Tagging
import Verif.Serial.StreamsProps
import Verif.Caps.Props
import Verif.Help.Props
import Verif.Tmx.OutputProps
import Verif.Tmx.BuilderProps
import Verif.Format.Txt
import Verif.Format.TokProofs
import Verif.Mult.LoopProps
import Verif.Pattern.Violations
import Verif.Crx.Examples
import Verif.Whole.Violations
import Verif.Inter.Violations
import Verif.Postchunk.Violations
import Verif.Parts.Attr
import Verif.Inter.Blanks
import Verif.Postchunk.Blanks
import Verif.Tsx.Violations
import Verif.Driver.Exec
import Verif.Mtx.Violations
import Verif.Trx.Violations
import Verif.Latex.Props
import Verif.Docx.Props
import Verif.Tagger.FilterProps
import Verif.Dom.Program
import Verif.Dom.Valid
import Verif.Dom.Document
import Verif.Glob.Prefer
import Verif.Tex.Props
import Verif.NewRules.Violations
import Verif.ReadWords.Props
import Verif.Coarse.Props
import Verif.TmxSim.Props
import Verif.TmxBuild.Words
import Verif.FeatVec.Props
import Verif.TmxFile.Props
import Verif.TransferCli.Props
import Verif.Setvar.Props
import Verif.Setvar.Prefs
import Verif.ApertiumCli.Props
