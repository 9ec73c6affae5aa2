{"id": "C01", "title": "Every string survives a JSON round trip", "statement": "If a std::string value is written with jsonExporter and the text is read back with jsonImporter (string input, backslash conversion on), the value read is byte-for-byte the value written and the reader stops exactly after the closing quote.", "quantifier": "every finite byte string (all 256 byte values, any length), and any text following the closing quote", "why_tests_cant": "The value space is infinite and the interesting inputs (runs of backslashes before the closing quote, control bytes, high bytes) interact with each other; a sample cannot cover every combination or length.", "anchors": ["src/Serialize/ThorsSerializerUtil.h: escapeString", "src/Serialize/JsonManualLexer.cpp: getStringInto, checkEscape", "src/Serialize/UnicodeIterator.h: UnicodeWrapperIterator", "src/Serialize/JsonPrinter.cpp: addValue(string_view)"]}
{"id": "C02", "title": "A JSON string value is always emitted as a legal RFC 8259 string token", "statement": "The text jsonExporter emits for a string value is one quote, a body, one quote, where the body contains no raw byte below 0x20, no unescaped quote and no backslash that does not start a legal escape, so an RFC reader sees exactly one string token which ends at the final quote.", "quantifier": "every finite byte string", "why_tests_cant": "A single unescaped byte in any position of any string breaks the document; positions and lengths are unbounded.", "anchors": ["src/Serialize/ThorsSerializerUtil.h: escapeString"]}
{"id": "C03", "title": "JSON string literals decode to the text RFC 8259 assigns to them", "statement": "Reading a JSON string literal made of raw characters, the eight short escapes and \\\\uXXXX escapes of the Basic Multilingual Plane yields the concatenation of the UTF-8 encodings of what the literal denotes.", "quantifier": "every well-formed literal of that shape, any length and any mixture of items", "why_tests_cant": "There are 65536 unicode escapes in three spellings per digit and unboundedly many mixtures; decoding is stateful (escape state, in-place overwrite).", "anchors": ["src/Serialize/UnicodeIterator.h: checkBuffer, decodeUnicode, getUnicodeHex, convertHexToDec"]}
{"id": "C04", "title": "Surrogate pairs decode to the code point they denote", "statement": "Reading a \\\\uD8xx\\\\uDCxx pair yields the four-byte UTF-8 encoding of the supplementary code point it denotes.", "quantifier": "all 1024 x 1024 surrogate pairs", "why_tests_cant": "A million pairs; unit tests use a handful, and the ones that go wrong are on planes tests rarely visit.", "anchors": ["src/Serialize/UnicodeIterator.h: decodeSurrogatePairs", "src/Serialize/UnicodeIterator.h: UnicodePushBackIterator::operator="]}
{"id": "C05", "title": "Malformed string escapes are rejected and never read outside the string", "statement": "Decoding the body of a JSON string either succeeds or throws; it never reads beyond the terminating NUL of the buffer, and it succeeds only when every backslash starts a legal escape and no raw byte is below 0x20.", "quantifier": "every byte sequence that can appear between quotes, including truncated escapes at the very end", "why_tests_cant": "Memory safety on all malformed inputs cannot be established by sampling.", "anchors": ["src/Serialize/UnicodeIterator.h: UnicodeWrapperIterator"]}
{"id": "C06", "title": "Decoding a string in place is the same as decoding it into fresh storage", "statement": "getValue(std::string&) decodes escapes by copying the buffer onto itself; the result equals decoding from an untouched copy, i.e. the write cursor never overtakes the read cursor.", "quantifier": "every byte sequence between quotes", "why_tests_cant": "Aliasing bugs show up only for particular length relations between input escapes and output bytes.", "anchors": ["src/Serialize/JsonManualLexer.cpp: getStringInto (std::copy onto itself)"]}
{"id": "C07", "title": "The two escape decoders agree", "statement": "Pushing the characters of a literal's body through UnicodePushBackIterator produces the same bytes as iterating it with UnicodeWrapperIterator, whenever the latter accepts the body.", "quantifier": "every byte sequence accepted by the iterator", "why_tests_cant": "Two independent state machines; agreement on all inputs is a bisimulation statement.", "anchors": ["src/Serialize/UnicodeIterator.h: UnicodePushBackIterator, UnicodeWrapperIterator"]}
{"id": "C08", "title": "Every integer survives a JSON round trip", "statement": "Any short/int/long/long long or unsigned counterpart written by jsonExporter and read back by jsonImporter into the same type is unchanged.", "quantifier": "every value of every width and signedness, followed by any legal delimiter", "why_tests_cant": "2^64 values per type; the digit loop and sign handling must be right at every boundary.", "anchors": ["src/Serialize/StringInput.h: readValue", "src/Serialize/ParserInterface.h: ReadValue", "src/Serialize/StringOutput.h: writeValue", "src/Serialize/JsonManualLexer.h: scan"]}
{"id": "C09", "title": "An integer literal that does not fit is reported, not silently replaced", "statement": "When a JSON integer literal is outside the range of the destination type, importing it reports a failure.", "quantifier": "every integer literal and every destination type", "why_tests_cant": "Infinite literals; the failing path depends on the exact error code of the conversion routine.", "anchors": ["src/Serialize/StringInput.h: readValue", "src/Serialize/JsonManualLexer.h: scan"]}
{"id": "C10", "title": "Numbers with leading zeros are rejected", "statement": "An integer literal with a superfluous leading zero is rejected (RFC 8259 forbids it), and every literal without one is accepted.", "quantifier": "every digit sequence with optional sign", "why_tests_cant": "All literals of all lengths and signs.", "anchors": ["src/Serialize/ParserInterface.h: ReadValue::checkZero, validateResult"]}
{"id": "C11", "title": "The JSON reader accepts only grammatical token sequences", "statement": "If the reader hands out tokens from document start to document end without an error, the punctuation and values it consumed form one grammatical JSON value: brackets match, keys are followed by a colon and a value, commas separate and never trail.", "quantifier": "every input, any nesting depth and length", "why_tests_cant": "Context-free structure over unbounded depth.", "anchors": ["src/Serialize/JsonParser.cpp: getNextToken, stateTable"]}
{"id": "C12", "title": "The JSON reader accepts every grammatical document", "statement": "For every JSON value and every way of spelling it with insignificant whitespace, the reader produces exactly the event sequence of that value (document start, events, document end) and no error.", "quantifier": "every JSON value of any depth, every whitespace placement", "why_tests_cant": "Unbounded values and whitespace placements.", "anchors": ["src/Serialize/JsonParser.cpp: getNextToken", "src/Serialize/ParserInterface.h: PeekNextNonSpaceValue", "src/Serialize/StringInput.h: readValue(char&)"]}
{"id": "C13", "title": "The JSON reader never closes a container that was not opened", "statement": "Whatever bytes are on the input and whatever the client does between tokens, the container stack inside the reader is never popped when empty.", "quantifier": "every sequence of lexical classes, i.e. every input and client behaviour", "why_tests_cant": "vector::back/pop_back on an empty vector is undefined behaviour; ruling it out needs an invariant over all histories.", "anchors": ["src/Serialize/JsonParser.cpp: getNextToken CloseM/CloseA, parrentState"]}
{"id": "C14", "title": "Document end is delivered once and errors are final", "statement": "After the single top-level value the reader yields document-end exactly once; from then on, and from the first error on, every further token is an error.", "quantifier": "every input, any number of further requests", "why_tests_cant": "Statement about all future requests.", "anchors": ["src/Serialize/JsonParser.cpp: getNextToken"]}
{"id": "C15", "title": "Pushed back tokens come back in last-in first-out order", "statement": "Up to two outstanding pushed back tokens are returned most recent first before any new input is read; one more is not lost.", "quantifier": "every interleaving of getToken and pushBackToken", "why_tests_cant": "Arbitrary operation histories.", "anchors": ["src/Serialize/ParserInterface.cpp: getToken, pushBackToken"]}
{"id": "C16", "title": "Skipping an unknown member consumes exactly that member's value", "statement": "In Weak mode, when a member of a JSON object is not known to the destination type, the reader skips that member's value, whatever it is, and resumes exactly after it.", "quantifier": "every JSON value of any depth, any following text", "why_tests_cant": "The skipped value is arbitrary data the type knows nothing about.", "anchors": ["src/Serialize/ParserInterface.cpp: ignoreTheValue, ignoreTheMap, ignoreTheArray", "src/Serialize/JsonManualLexer.cpp: ignoreRawValue"]}
{"id": "C17", "title": "Strict mode rejects unknown members", "statement": "In Strict and Exact mode, importing an object that contains a member name unknown to the type fails; in Weak mode it does not fail for that reason.", "quantifier": "every struct type, every object, every position of the unknown member", "why_tests_cant": "Every possible type and input.", "anchors": ["src/Serialize/ParserInterface.cpp: ignoreValue", "src/Serialize/Serialize.tpp: DeSerializationForBlock::scanObject"]}
{"id": "C18", "title": "Exact mode requires every member", "statement": "In Exact mode a successful import means every member of the type (including inherited ones) was present in the input, and if every member is present exactness causes no failure, also when members are renamed with a name override.", "quantifier": "every struct type with any inheritance depth and any override table, every input", "why_tests_cant": "Universal over types and inputs.", "anchors": ["src/Serialize/Serialize.tpp: HeedAllValues, DeSerializationForBlock::scanObject", "src/Serialize/Traits.h: Override"]}
{"id": "C19", "title": "Member order in the input does not matter", "statement": "Importing an object into a struct gives the same result for every permutation of the members in the input.", "quantifier": "every struct type with distinct member names, every permutation", "why_tests_cant": "n! orders for every type.", "anchors": ["src/Serialize/Serialize.tpp: scanObject, scanObjectMembers"]}
{"id": "C20", "title": "Every exported JSON document is well formed", "statement": "For every value of every supported type and every output layout, the text emitted by jsonExporter is a grammatical RFC 8259 document denoting the expected JSON value; a value without a JSON representation is refused with an exception. (Object keys that would need escaping are the subject of C21, indentation beyond the indentation buffer of C25.)", "quantifier": "every type built from the supported constructors, every value of it, every layout and tab/block size", "why_tests_cant": "Unbounded types, values and depths; comma/colon placement is driven by mutable per-level state.", "anchors": ["src/Serialize/JsonPrinter.cpp", "src/Serialize/Serialize.tpp: SerializerForBlock, SerializeMember"]}
{"id": "C21", "title": "Object keys are emitted as legal JSON strings", "statement": "Whatever std::string is used as a key of a std::map<std::string,T>, the emitted document is well formed and the key is recovered on import.", "quantifier": "every key", "why_tests_cant": "Keys are arbitrary user data.", "anchors": ["src/Serialize/JsonPrinter.cpp: addKey"]}
{"id": "C22", "title": "Layout only changes insignificant whitespace", "statement": "The Stream, Config and Default layouts of the same value, with any tab size and block indent, differ only in whitespace outside strings. (Indentation beyond the indentation buffer is the subject of C25.)", "quantifier": "every value, every pair of layouts", "why_tests_cant": "All values and all layouts.", "anchors": ["src/Serialize/JsonPrinter.cpp: Prefix, PrefixKey, PrefixValue, PrefixMap, PrefixArray"]}
{"id": "C23", "title": "JSON print then parse is the identity", "statement": "For every value of every supported type, jsonExporter followed by jsonImporter into a fresh object of the same type yields an equal value and leaves the input exactly after the document.", "quantifier": "every type in the universe (integers, bool, string, vector, std::map, optional member, unique_ptr, enum, pair, structs with nesting), every value, every layout", "why_tests_cant": "Infinite types and values.", "anchors": ["src/Serialize/Serialize.tpp", "src/Serialize/JsonPrinter.cpp", "src/Serialize/JsonParser.cpp", "src/Serialize/SerUtil.h"]}
{"id": "C24", "title": "Output to std::string never writes outside its buffer", "statement": "When exporting to a std::string, the size computed by the first (sizing) pass is at least the number of bytes written by the second pass, the final string is exactly the emitted text, and in exact mode the computed size equals it.", "quantifier": "every sequence of writes of strings, integers and booleans; both sizing modes", "why_tests_cant": "Buffer safety over all values and lengths; an under-estimate is memory corruption.", "anchors": ["src/Serialize/StringOutput.h: write, writeValue, reserveSize, finalizePrint", "src/Serialize/Serialize.tpp: Serializer::print"]}
{"id": "C25", "title": "Indentation never reads outside its buffer", "statement": "Printing in an indented layout reads only inside the static indentation buffer for every nesting depth.", "quantifier": "every depth, tab size and block size", "why_tests_cant": "The bound depends on the product of depth and tab size, unbounded for user data.", "anchors": ["src/Serialize/JsonPrinter.cpp: printIndent, buildIndent"]}
{"id": "C26", "title": "BSON size headers equal the bytes they cover", "statement": "In every BSON document written, the int32 at the start of each document, sub-document and array equals the number of bytes from that header up to and including its terminator.", "quantifier": "every value of every supported type, at every nesting level", "why_tests_cant": "The size is computed by a separate recursive pass before writing; the two must agree for all values.", "anchors": ["src/Serialize/BsonPrinter.cpp: getSizeMap, getSizeArray, openMap, openArray", "src/Serialize/Traits.h: TraitsSizeCalculator", "src/Serialize/ThorsSerializerUtil.h: CalcSizeHelper"]}
{"id": "C27", "title": "BSON print then parse is the identity", "statement": "For every value of every supported type, bsonExporter followed by bsonImporter into a fresh object yields an equal value and consumes exactly the document.", "quantifier": "every type in the universe, every value", "why_tests_cant": "Infinite types and values.", "anchors": ["src/Serialize/BsonPrinter.cpp", "src/Serialize/BsonParser.cpp", "src/Serialize/Serialize.tpp"]}
{"id": "C28", "title": "BSON strings are stored verbatim", "statement": "A std::string written to BSON is stored as its own bytes and read back unchanged.", "quantifier": "every byte string", "why_tests_cant": "Arbitrary user data.", "anchors": ["src/Serialize/BsonPrinter.cpp: writeString", "src/Serialize/BsonParser.cpp: readString", "src/Serialize/BsonPrinter.h: getSizeValue"]}
{"id": "C29", "title": "The space reserved for BSON array index keys is exact", "statement": "The array size computation accounts for exactly the total length of the decimal keys \"0\",\"1\",...,\"n-1\".", "quantifier": "every array length n", "why_tests_cant": "Loop over powers of ten; correctness at every boundary for every n.", "anchors": ["src/Serialize/BsonPrinter.cpp: getSizeArray"]}
{"id": "C30", "title": "Skipping an unknown BSON element consumes exactly that element", "statement": "In Weak mode an unknown BSON element of any supported type, scalar or nested document/array, is skipped and reading resumes exactly after it.", "quantifier": "every element of any depth, any following bytes", "why_tests_cant": "Arbitrary foreign data.", "anchors": ["src/Serialize/BsonParser.cpp: ignoreDataValue, getNextToken", "src/Serialize/ParserInterface.cpp: ignoreTheValue"]}
{"id": "C31", "title": "BSON integers are read without changing their value", "statement": "Reading a BSON int32 or int64 element into an integer variable of any width gives the stored number, or fails.", "quantifier": "all stored values, all destination types", "why_tests_cant": "Every pair of stored value and destination type.", "anchors": ["src/Serialize/BsonParser.h: getIntValue", "src/Serialize/BsonPrinter.h: writeInt"]}
{"id": "C32", "title": "Fixed-width integer encodings invert each other", "statement": "writeLE/readLE and writeBE/readBE of any width are mutually inverse on every value that fits the width.", "quantifier": "every width up to the type's size, every value", "why_tests_cant": "All values of all widths.", "anchors": ["src/Serialize/BsonPrinter.h: writeLE, writeBE", "src/Serialize/BsonParser.h: readLE, readBE"]}
{"id": "C33", "title": "Truncated BSON is never accepted", "statement": "If a BSON document is cut anywhere before its last byte, importing it from a string fails.", "quantifier": "every document, every cut point", "why_tests_cant": "Every crash/cut point of every document.", "anchors": ["src/Serialize/BsonParser.cpp: readEndOfContainer, readKey", "src/Serialize/StringInput.h: read, readTo"]}
{"id": "C34", "title": "Enum values round trip and foreign names are rejected", "statement": "For an enum registered with a value-to-name table with distinct names, exporting then importing any registered value gives it back; a name not in the table is rejected on import and an unregistered value is rejected on export. (Layouts whose indentation fits, C25.)", "quantifier": "every enum table, every value, every name", "why_tests_cant": "All tables.", "anchors": ["src/Serialize/Traits.h: ThorsAnvil_MakeEnum, Traits<EnumName>", "src/Serialize/Serialize.tpp: DeSerializationForBlock<Enum>"]}
{"id": "C35", "title": "Shared pointers keep their sharing", "statement": "Exporting a sequence of shared_ptr handles and importing it gives handles with the same aliasing pattern: two imported handles are the same object exactly when the exported ones were; each pointee's data is written exactly once.", "quantifier": "every sequence of handles with any sharing pattern, including null handles", "why_tests_cant": "All aliasing patterns of all lengths.", "anchors": ["src/Serialize/PrinterInterface.h: addShared", "src/Serialize/ParserInterface.h: getShared", "src/Serialize/Serialize.tpp: shared_ptr blocks"]}
{"id": "C36", "title": "Polymorphic objects come back as the class they were", "statement": "Exporting through a base pointer records the dynamic class; importing builds an object of that registered class with the same members; an unregistered class name is rejected. (Keys that need no escaping, C21, and indentation that fits, C25.)", "quantifier": "every registry, every class in it, every object", "why_tests_cant": "All registries and objects.", "anchors": ["src/Serialize/Serialize.tpp: getPolymorphicClassName, tryParsePolyMorphicObject, printPolyMorphicMembers", "src/Serialize/PolymorphicMarker.h", "src/Serialize/Traits.h: PolyMorphicRegistry"]}
{"id": "C37", "title": "Import outcome is decided by the documented policy", "statement": "An import reports success exactly when parsing succeeded and the stream is good; an ordinary exception always leaves the stream failed and is rethrown exactly when catchExceptions is off; an unknown exception exactly when catchUnknownExceptions is off; a deprecated-use error always propagates.", "quantifier": "every combination of configuration flags and parse outcomes", "why_tests_cant": "Decision table including exception kinds tests cannot easily raise at every point.", "anchors": ["src/Serialize/Importer.h: extract", "src/Serialize/Exporter.h: inserter"]}
{"id": "C38", "title": "Trailing data is detected exactly", "statement": "With validateNoTrailingData, import from a string succeeds exactly when the document is followed only by whitespace; without it trailing data is left alone.", "quantifier": "every document and every trailing text", "why_tests_cant": "Every trailing text.", "anchors": ["src/Serialize/Importer.h: extract", "src/Serialize/StringInput.h: readValue(char&)"]}
{"id": "C39", "title": "Associative containers resolve duplicate keys as their C++ type does", "statement": "Importing an object with repeated keys into std::map keeps the last value, into std::unordered_map keeps the first, and into multimaps keeps all in order.", "quantifier": "every key/value sequence", "why_tests_cant": "All sequences.", "anchors": ["src/Serialize/SerUtil.h: map, multimap, unordered_map blocks"]}
{"id": "C40", "title": "Fixed-size containers are not overrun by long input", "statement": "Importing an array with more elements than a std::array or std::tuple holds never writes outside the container.", "quantifier": "every input length", "why_tests_cant": "Memory safety for all lengths.", "anchors": ["src/Serialize/SerUtil.h: std::array, std::tuple blocks"]}
{"id": "C41", "title": "Optional members are absent exactly when empty", "statement": "An empty std::optional member is not written and is left empty on import; an engaged one is written and restored.", "quantifier": "every struct with optional members, every value", "why_tests_cant": "All combinations of engaged members.", "anchors": ["src/Serialize/Traits.h: Filter", "src/Serialize/SerUtil.h: optional"]}
{"id": "C42", "title": "Filtered and inherited members", "statement": "A member hidden by a filter is not written and does not disturb its neighbours; members of parent classes are all written after the own members and all read back. (Keys that need no escaping, C21, indentation that fits, C25; reading back: for member values that survive a round trip, C23, and classes that do not name their own type field, C123.)", "quantifier": "every inheritance tree and every filter", "why_tests_cant": "All class hierarchies and filters.", "anchors": ["src/Serialize/Serialize.tpp: printObjectMembers, scanObjectMembers, ApplyActionToAllParent", "src/Serialize/Traits.h: ThorsAnvil_MakeFilter"]}
{"id": "C43", "title": "ObjectID text and binary forms round trip", "statement": "An ObjectID whose fields fit their 4/5/3 bytes is restored from its 24 hex digits and from its 12 BSON bytes.", "quantifier": "all field values that fit", "why_tests_cant": "2^96 values.", "anchors": ["src/Serialize/MongoUtility.h: operator<<, operator>>, readNumberMaxLenFromStream"]}
{"id": "C44", "title": "YAML events become the same token stream as JSON", "statement": "For every value, the event sequence libyaml reports for it is turned into the same token sequence the JSON reader would give, with keys and values distinguished correctly at every depth.", "quantifier": "every value of any depth", "why_tests_cant": "Unbounded depth; key/value alternation is per-level state.", "anchors": ["src/Serialize/YamlParser.cpp: getNextToken, translateToken"]}
{"id": "C45", "title": "Reading primitives of the string input stay inside the string", "statement": "Every primitive read on a string input, from a reachable state, reads only inside the string and leaves the position inside or one past the end; get followed by unget restores the state.", "quantifier": "every operation sequence the readers perform, every string", "why_tests_cant": "All histories of operations.", "anchors": ["src/Serialize/StringInput.h"]}
{"id": "C46", "title": "A captured raw block denotes the same JSON value", "statement": "Importing any JSON value into an AnyBlock and printing the captured text gives a document denoting the same value with insignificant whitespace removed.", "quantifier": "every JSON value of any depth and spelling", "why_tests_cant": "Arbitrary foreign data.", "anchors": ["src/Serialize/Serialize.tpp: DeSerializationForBlock<AnyBlock>", "src/Serialize/Traits.h: AnyBlock", "src/Serialize/JsonManualLexer.cpp: getRawString"]}
{"id": "C47", "title": "A fractional or exponent number is never truncated into an integer", "statement": "Importing a JSON number that has a fraction or an exponent into an integer destination fails; it is never silently cut to its integer part.", "quantifier": "every integer part, every continuation starting with a point or an exponent mark, every signed destination type", "why_tests_cant": "The set of literals is infinite and the failure would only show for particular digit/boundary combinations (end of input, delimiter directly after the mark).", "anchors": ["src/Serialize/ParserInterface.h ReadValue::validateResult", "src/Serialize/JsonManualLexer.h scan"]}
{"id": "C48", "title": "Mongo dates, time stamps, binary data, code and regular expressions round trip", "statement": "A UTCDateTime, a BsonTimeStamp, binary data, JavaScript code and a regular expression (no NUL in its texts) written as a BSON element are read back as the same value, the reader ends exactly behind the element and the size announced for it is the number of bytes written; dates and time stamps also round trip through JSON.", "quantifier": "every value of these types, wherever in a document the element stands, any bytes around it", "why_tests_cant": "The payloads are arbitrary byte strings of any length.", "anchors": ["src/Serialize/MongoUtility.h: BinarySerializer, JavascriptSerializer, RegExSerializer, operator<<, operator>>", "src/Serialize/CustomSerialization.tpp"]}
{"id": "C49", "title": "asDateTime keeps the instant", "statement": "BsonTimeStamp::asDateTime returns the same instant in milliseconds.", "quantifier": "every time stamp", "why_tests_cant": "2^32 values; the failing ones start in February 1970.", "anchors": ["src/Serialize/MongoUtility.cpp: BsonTimeStamp::asDateTime"]}
{"id": "C50", "title": "Time stamps are stored as bsonspec prescribes", "statement": "A BsonTimeStamp is stored as an unsigned 64 bit little endian integer with the increment in the low half.", "quantifier": "every time stamp", "why_tests_cant": "A round trip through the library itself cannot see a wrong byte order.", "anchors": ["src/Serialize/MongoUtility.h: operator<<(BsonPrinter&, BsonTimeStamp const&)"]}
{"id": "C51", "title": "Text, bytes and order of an ObjectID agree", "statement": "The text of an ObjectID is the hexadecimal dump of its twelve bytes, and ObjectIDs (with time stamps from 1970 on) compare like their texts.", "quantifier": "all pairs of ObjectIDs whose fields fit", "why_tests_cant": "2^192 pairs.", "anchors": ["src/Serialize/MongoUtilityObjectId.h: operator<", "src/Serialize/MongoUtility.h: operator<<"]}
{"id": "C52", "title": "to_string gives the current value", "statement": "ObjectID::to_string returns the text of the value the object holds now.", "quantifier": "every history of reads and to_string calls", "why_tests_cant": "The result is cached, so it depends on the history of the object.", "anchors": ["src/Serialize/MongoUtilityObjectId.h: to_string", "src/Serialize/MongoUtility.h: operator>>"]}
{"id": "C53", "title": "Every element the library writes can be skipped", "statement": "For every element type the library writes, skipping an unknown member of that type leaves the reader exactly behind it.", "quantifier": "every Mongo element type, every payload", "why_tests_cant": "The payloads have any length; a wrong skip shows only in what follows.", "anchors": ["src/Serialize/BsonParser.cpp: ignoreDataValue", "src/Serialize/MongoUtility.h"]}
{"id": "C54", "title": "A Mongo type is not read from an element of another type", "statement": "Importing an ObjectID, date, time stamp, binary data, code or regular expression from an element of another BSON type, or from a document or array, fails.", "quantifier": "every element type, every payload", "why_tests_cant": "All combinations of types and payloads.", "anchors": ["src/Serialize/CustomSerialization.h: readCustom", "src/Serialize/MongoUtility.h: readBson"]}
{"id": "C55", "title": "YAML export followed by import is the identity", "statement": "Exporting any value as YAML and importing the result into a fresh object gives the value.", "quantifier": "every value of every supported type", "why_tests_cant": "Every string is a value, and some texts mean something else in YAML.", "anchors": ["src/Serialize/YamlPrinter.cpp: emit, emitNull, addKey", "src/Serialize/YamlParser.cpp: getNextToken, getString, isValueNull"]}
{"id": "C56", "title": "Only complete plain YAML documents are accepted", "statement": "An import from YAML succeeds only on a complete document without aliases and with scalar keys; if the YAML is cut short or malformed anywhere, the import fails.", "quantifier": "every YAML document, every place where libyaml may report an error, every destination type", "why_tests_cant": "The place of the damage is anywhere in documents of any size.", "anchors": ["src/Serialize/YamlParser.cpp: getNextToken, parsingError"]}
{"id": "C57", "title": "YAML integers are exact or refused", "statement": "Reading an integer from a YAML scalar gives the number written there, or an exception if it does not fit or is not a number.", "quantifier": "every scalar text, every integer type", "why_tests_cant": "Unbounded set of texts.", "anchors": ["src/Serialize/YamlParser.cpp: scan", "src/Serialize/Serialize.h: scanValue"]}
{"id": "C58", "title": "libyaml's buffering is invisible", "statement": "However libyaml cuts its input and output into chunks, it sees exactly the input, and the text written is its output with the block indentation at the start of each line.", "quantifier": "every input, every sequence of chunk sizes", "why_tests_cant": "libyaml's buffer sizes make other cuts unreachable for small test documents.", "anchors": ["src/Serialize/YamlParser.cpp: thorsanvilYamlStreamReader", "src/Serialize/YamlPrinter.cpp: thorsanvilYamlStreamWritter"]}
{"id": "C59", "title": "JSON documents mean the same when read as YAML", "statement": "Since JSON is YAML in flow style, whatever importing a JSON document gives, importing the YAML document with the same content gives too.", "quantifier": "every JSON document, every destination type, every strictness mode", "why_tests_cant": "All documents and types.", "anchors": ["src/Serialize/YamlParser.cpp", "src/Serialize/JsonParser.cpp", "src/Serialize/Serialize.tpp"]}
{"id": "C60", "title": "Reading from a stream and from a string gives the same", "statement": "Importing a JSON document from a std::istream gives the same value, success flag and treatment of trailing data as importing it from a std::string with the same bytes, and leaves the stream right behind the document.", "quantifier": "every JSON document, whatever follows it, every destination type and old value, every strictness mode and error policy, every stream in a good state", "why_tests_cant": "All documents, types and stream contents.", "anchors": ["src/Serialize/ParserInterface.h:ReadValue", "src/Serialize/JsonManualLexer.cpp", "src/Serialize/JsonParser.cpp", "src/Serialize/Importer.h"]}
{"id": "C61", "title": "Several documents in one stream", "statement": "Documents standing one behind the other in a stream are imported one after the other, each as if it were alone; no import consumes characters of the next document.", "quantifier": "every sequence of JSON documents and destinations, with or without white space between them", "why_tests_cant": "All sequences of documents.", "anchors": ["src/Serialize/JsonManualLexer.cpp", "src/Serialize/JsonParser.cpp", "src/Serialize/Importer.h:operator>>"]}
{"id": "C62", "title": "JSON numbers are read as the nearest floating point value", "statement": "Importing a JSON number into a float, double or long double stores the value of the type nearest to the number, with its sign, and stops right behind it; a number outside the range of the type is reported as an error.", "quantifier": "every JSON number text of any length and exponent, every floating point type, whatever follows the number", "why_tests_cant": "All decimal texts; correct rounding and range limits cannot be sampled.", "anchors": ["src/Serialize/JsonManualLexer.h:scan", "src/Serialize/ParserInterface.h:ReadValue", "src/Serialize/StringInput.h:readValue"]}
{"id": "C63", "title": "Floating point values are printed as JSON numbers", "statement": "Whatever the value of a float, double or long double, the text printed for it into a string or on a stream is a JSON number.", "quantifier": "every value of every floating point type, both kinds of output", "why_tests_cant": "2^64 doubles.", "anchors": ["src/Serialize/JsonPrinter.cpp:FormatDouble", "src/Serialize/JsonPrinter.cpp:to_chars"]}
{"id": "C64", "title": "Floating point values survive JSON in a string", "statement": "A finite floating point value exported as JSON into a std::string and imported again is unchanged.", "quantifier": "every finite value of every floating point type", "why_tests_cant": "2^64 doubles.", "anchors": ["src/Serialize/JsonPrinter.cpp:to_chars", "src/Serialize/StringOutput.h:writeValue", "src/Serialize/StringInput.h:readValue"]}
{"id": "C65", "title": "Floating point values survive JSON on a stream", "statement": "A finite floating point value exported as JSON to a std::ostream and imported from that text is unchanged.", "quantifier": "every finite value of every floating point type", "why_tests_cant": "2^64 doubles.", "anchors": ["src/Serialize/JsonPrinter.cpp:FormatDouble", "src/Serialize/JsonManualLexer.h:scan"]}
{"id": "C66", "title": "Floating point values exported to std::string stay inside its buffer", "statement": "Exporting a value that contains floating point numbers as JSON into a std::string never writes outside the string, and the result is a well formed document that denotes the value.", "quantifier": "every value, both sizing modes, any previous contents", "why_tests_cant": "The size is estimated before printing; an under-estimate for any of 2^64 doubles is memory corruption.", "anchors": ["src/Serialize/StringOutput.h: writeValue", "src/Serialize/JsonPrinter.cpp: to_chars", "src/Serialize/Serialize.tpp: Serializer::print"]}
{"id": "C67", "title": "Floating point values survive BSON", "statement": "Every value of a floating point type is exported to BSON as a double element holding its IEEE 754 encoding, least significant byte first, and importing it gives the value again.", "quantifier": "every value of float, double and long double, infinities and NaN included", "why_tests_cant": "2^64 doubles.", "anchors": ["src/Serialize/BsonPrinter.h: writeFloat", "src/Serialize/BsonParser.h: getFloatValue, readLE"]}
{"id": "C68", "title": "BSON numbers are read into floating point types as the nearest value", "statement": "A BSON int32, int64 or double read into a floating point type gives the nearest value of that type (infinity if too large); elements of any other type are rejected.", "quantifier": "every stored number, every floating point type, every other element", "why_tests_cant": "2^64 payloads for each type of element.", "anchors": ["src/Serialize/BsonParser.h: getFloatValue", "src/Serialize/BsonParser.cpp: readFloat"]}
{"id": "C69", "title": "YAML numbers are stored as the nearest floating point value, or refused", "statement": "A YAML scalar that is a decimal number, imported into a floating point type, gives the nearest value of that type, or the import fails.", "quantifier": "every decimal text, every floating point type", "why_tests_cant": "Unboundedly many decimal texts; rounding is where conversions go wrong.", "anchors": ["src/Serialize/YamlParser.cpp: scan, getValue"]}
{"id": "C70", "title": "JSON numbers read from a stream are stored as the nearest floating point value, or refused", "statement": "A JSON number read from a std::istream into a floating point type gives the nearest value of that type, or the import fails; the stream is left right behind the number.", "quantifier": "every JSON number, every floating point type, every text behind it", "why_tests_cant": "Unboundedly many decimal texts.", "anchors": ["src/Serialize/JsonManualLexer.h: scan", "src/Serialize/StreamInput.h: readValue"]}
{"id": "C71", "title": "A set imported from an array has the distinct elements in order", "statement": "Importing an array into a std::set gives a set in ascending order whose elements are exactly those of the old set and of the array, of equivalent ones the first; nothing is lost.", "quantifier": "every comparison that is a strict weak ordering, every element type, every array, every old set", "why_tests_cant": "Duplicates and order interact for arrays of any length and any comparison.", "anchors": ["src/Serialize/SerUtil.h: MemberInserter<std::set>, ContainerMemberExtractorInserter"]}
{"id": "C72", "title": "A multiset imported from an array keeps every element", "statement": "Importing an array into a std::multiset keeps every element, in ascending order, equivalent ones in the order of the document.", "quantifier": "every comparison that is a strict weak ordering, every element type, every array, every old multiset", "why_tests_cant": "The claim is about all arrays of any length.", "anchors": ["src/Serialize/SerUtil.h: MemberInserter<std::multiset>, ContainerMemberExtractorInserter"]}
{"id": "C73", "title": "An unordered set imported from an array has the distinct elements", "statement": "Importing an array into a std::unordered_set gives a set without equal elements whose elements are exactly those of the old set and of the array, of equal ones the first.", "quantifier": "every equality, every element type, every array, every old set", "why_tests_cant": "The claim is about all arrays of any length.", "anchors": ["src/Serialize/SerUtil.h: MemberInserter<std::unordered_set>"]}
{"id": "C74", "title": "The order of an array does not matter for sets", "statement": "Two arrays with the same elements give the same std::set; two arrays with the same elements equally often give the same std::multiset.", "quantifier": "every comparison that tells the elements apart, every two arrays", "why_tests_cant": "All permutations of arrays of any length.", "anchors": ["src/Serialize/SerUtil.h: MemberInserter<std::set>, MemberInserter<std::multiset>"]}
{"id": "C75", "title": "Maps with other keys than strings keep the first of repeated keys", "statement": "A std::map whose keys are not strings is an array of objects with first and second; importing one gives the map in the order of the keys, with the first value of each repeated key.", "quantifier": "every key and value type, every comparison that is a strict weak ordering, every array of such objects", "why_tests_cant": "Duplicates and order interact for arrays of any length.", "anchors": ["src/Serialize/SerUtil.h: MemberInserter<std::map>, Traits<std::pair>"]}
{"id": "C76", "title": "Exports on different threads do not disturb each other", "statement": "If several threads export JSON at the same time, each to its own stream, each stream gets the text its export writes when it is the only one.", "quantifier": "all numbers of threads, all values and settings, all schedules", "why_tests_cant": "There are exponentially many schedules, and the bad ones need a switch inside one particular pair of statements.", "anchors": ["src/Serialize/JsonPrinter.cpp: Prefix::printIndent"]}
{"id": "C77", "title": "An export does not depend on the exports before it", "statement": "What a JSON export writes depends on its value and settings only, whatever was exported before, also if an earlier export was ended by an exception of its stream.", "quantifier": "all histories of exports, complete or ended by an exception at any write", "why_tests_cant": "Histories have any length, and every write of every export is a point where the stream may throw.", "anchors": ["src/Serialize/JsonPrinter.cpp: Prefix::printIndent"]}
{"id": "C78", "title": "ObjectIDs made by default are different", "statement": "Two ObjectIDs a program makes with the default arguments are different.", "quantifier": "all results of the clock and of std::rand(), all numbers of ObjectIDs, all schedules of threads", "why_tests_cant": "Collisions depend on random numbers and on the order of unsynchronised accesses.", "anchors": ["src/Serialize/MongoUtilityObjectId.h: getNextCounter", "src/Serialize/MongoUtility.cpp: classCounter"]}
{"id": "C79", "title": "A JSON document that was cut short is not imported", "statement": "If the text of a JSON document whose value is not a number is cut anywhere before its end, importing what is left does not report success: the import fails, and the stream is left in a failed state or an exception is raised.", "quantifier": "all documents, all places to cut them, all types and old values, all configurations and policies", "why_tests_cant": "There are unboundedly many documents and places to cut them, and what the reader does there depends on the type it imports into and on what it skips.", "anchors": ["src/Serialize/Importer.h: extract", "src/Serialize/JsonParser.cpp: getNextToken", "src/Serialize/JsonManualLexer.cpp", "src/Serialize/StringInput.h", "src/Serialize/Serialize.tpp: scanObject"]}
{"id": "C80", "title": "BSON from a stream and from a string", "statement": "Importing BSON from a stream gives the same as importing the same bytes from a string: the same value or the same failure, and on success the stream is left right behind the document.", "quantifier": "all byte sequences, all documents, all types and old values, all parse modes, all positions in a stream", "why_tests_cant": "The two readers behave differently at the end of the data and on odd sizes, at every operation and for every input.", "anchors": ["src/Serialize/BsonParser.cpp", "src/Serialize/BsonParser.h", "src/Serialize/ParserInterface.h: read, readTo, ignore"]}
{"id": "C81", "title": "Several BSON documents in one stream", "statement": "BSON documents written one behind the other into a stream are read back one after the other: each import reads its own document and leaves the stream in front of the next.", "quantifier": "all numbers of documents, all values and types, whatever follows", "why_tests_cant": "The number and the contents of the documents are unbounded.", "anchors": ["src/Serialize/BsonParser.cpp: getNextToken, readEndOfContainer", "src/Serialize/Importer.h: extract"]}
{"id": "C82", "title": "A BSON import takes only its document out of the stream", "statement": "A BSON import from a stream that succeeds has taken some first part of the bytes ahead and left the stream in a good state in front of the others, which had no influence on the result; so nothing behind the document is needed or lost, and a document that was cut short is never imported.", "quantifier": "all bytes ahead in a stream, documents or not, all continuations, all types and old values, all parse modes, all cuts", "why_tests_cant": "What may stand behind a document, and where a transfer may break off, is unbounded.", "anchors": ["src/Serialize/BsonParser.cpp", "src/Serialize/ParserInterface.h: read, readTo, ignore", "src/Serialize/Importer.h: extract"]}
{"id": "C83", "title": "Importing a JSON text comes to an end and stays in bounds", "statement": "Importing from a string always comes to an end, whatever bytes it holds, and never reads or writes outside the text and the objects of the target: the import reports success or failure, or raises an exception.", "quantifier": "all byte strings, all types built from numbers, booleans, strings, enums, containers, maps, optionals, pointers, variants and classes, all old values, all parse modes and policies", "why_tests_cant": "The texts are unbounded and most of them are not JSON; that a loop ends on all of them cannot be observed by running it on some.", "anchors": ["src/Serialize/Serialize.tpp", "src/Serialize/JsonParser.cpp: getNextToken, isValueNull", "src/Serialize/JsonManualLexer.cpp", "src/Serialize/ParserInterface.cpp: ignoreTheValue", "src/Serialize/Importer.h: extract"]}
{"id": "C84", "title": "The _id members of an insert command", "statement": "Exporting to BSON with a store for identifiers adds a member `_id` with a new ObjectID in front of the members of each document that is an element of an array that is itself a member of the exported document, and changes nothing else; all lengths count the new members. The store afterwards holds what it held before, followed by exactly the identifiers that were written, in the order of the documents. Without a store nothing is added.", "quantifier": "all values of all types, all contents of the store, all sequences of identifiers, output to streams and to strings", "why_tests_cant": "Which documents get an identifier depends on the nesting, and the length of every enclosing document depends on how many do; the shapes are unbounded.", "anchors": ["src/Serialize/BsonPrinter.cpp: needToInsertId, openMap, getSizeMap", "src/Serialize/BsonThor.h: bsonExporter", "src/Serialize/Serialize.tpp: Serializer::print"]}
{"id": "C85", "title": "Projections", "statement": "Exporting Projection{value} to BSON writes the document that exporting the value would write, with the 32 bit integer 1 in place of every value that is not an array or a document, and with the lengths of that document.", "quantifier": "all values of all types, exported by themselves or as a member of something else", "why_tests_cant": "Every length in the document must agree with the projected contents, at every nesting depth.", "anchors": ["src/Serialize/BsonThor.h: Projection, Traits<Projection<T>>", "src/Serialize/BsonPrinter.h: getSize, writeProjection, addValue"]}
{"id": "C86", "title": "bsonGetPrintSize is the size of the export", "statement": "bsonGetPrintSize(value) is the number of bytes that exporting the value as BSON writes, with the same store argument.", "quantifier": "all values of all types, with and without a store", "why_tests_cant": "The size is computed by other functions than those that print; they have to agree on every value of every shape.", "anchors": ["src/Serialize/BsonThor.h: bsonGetPrintSize", "src/Serialize/BsonPrinter.cpp: getSizeMap, getSizeArray", "src/Serialize/SerUtil.h, src/Serialize/Traits.h: getPrintSize"]}
{"id": "C87", "title": "Exporting a range", "statement": "Exporting a range writes what exporting a std::vector of the same elements writes, in JSON, YAML and BSON, to streams and to strings.", "quantifier": "all ranges of all element types, all configurations, all old contents of the string", "why_tests_cant": "The exporters of ranges have their own code for the array and its size; the element types and numbers of elements are unbounded.", "anchors": ["src/Serialize/Exporter.h: ExporterRange, ExporterRangeBson", "src/Serialize/JsonThor.h, YamlThor.h, BsonThor.h: the exporters for ranges"]}
{"id": "C88", "title": "jsonStreanSize is the size of the compact JSON text", "statement": "jsonStreanSize(value) is the number of characters that exporting the value as JSON without white space (OutputType::Stream) writes to a stream.", "quantifier": "all values of all types", "why_tests_cant": "The size is computed by other functions than those that print, with a logarithm for the digits; they have to agree on every value of every shape.", "anchors": ["src/Serialize/JsonThor.h: jsonStreanSize", "src/Serialize/JsonPrinter.h: getSizeMap, getSizeArray, getSizeValue, getOutputSizeInt, getOutputSizeFlt", "src/Serialize/SerUtil.h: MapLike, ArrayLike, Traits<std::pair>"]}
{"id": "C89", "title": "OutputType::Stream removes all white space", "statement": "With OutputType::Stream the JSON text of a value consists of its tokens without anything between, before or after them; these are the tokens that the other layouts put white space around.", "quantifier": "all values of all types that can be exported, all tab sizes and block indents", "why_tests_cant": "The separators depend on the kind of container and the position in it, at every nesting depth.", "anchors": ["src/Serialize/JsonPrinter.cpp: printSeporator, printIndent, openMap, closeMap, openArray, closeArray, addKey, addIndent", "src/Serialize/PrinterConfig.h: OutputType"]}
{"id": "C90", "title": "std::format obeys its format specification", "statement": "std::format with TA::Ser(value) and a specification <J|B|Y>?<-|*>?<tab>?[.<block>] puts exactly the JSON text, BSON document or YAML output of the value in place of the field, with the requested layout, tab size and block indentation, and consumes exactly the specification; every other specification is refused with an exception.", "quantifier": "every format specification (any digits), every following text, every value and type", "why_tests_cant": "the specifications are an infinite language with four optional parts; tests try a few of the combinations and none of the refused texts", "anchors": ["src/Serialize/Format.h: std::formatter<TA::Ser<T>>::parse, format", "src/Serialize/PrinterConfig.h: PrinterConfig", "src/Serialize/Exporter.h: inserter"]}
{"id": "C91", "title": "Importing YAML comes to an end and stays in bounds", "statement": "Importing a YAML text into an object comes to an end, with a value or an exception, and does nothing undefined on the way, whatever the text is: valid or not, cut off anywhere, with aliases, with collections as keys, with any nesting.", "quantifier": "every sequence of libyaml events in which collections are closed in the order of their opening, broken off anywhere; every type and object; every mode", "why_tests_cant": "the texts are infinitely many, and reads of an event that is not a scalar or loops that never end show up only for particular combinations of broken text and type", "anchors": ["src/Serialize/YamlParser.cpp: getNextToken, getString, scan, isValueNull", "src/Serialize/ParserInterface.cpp: ignoreValue, ignoreTheMap, ignoreTheArray", "src/Serialize/Serialize.tpp: DeSerializer, DeSerializationForBlock"]}
{"id": "C92", "title": "Builders return the value in the input", "statement": "jsonBuilder<T>(input), bsonBuilder<T>(input) and yamlBuilder<T>(input) return the value the input describes, or T{} if it could not be read and exceptions are caught: never an object that is filled in half, and nothing in it that was not in the input or in T{}.", "quantifier": "every format, every input (valid or not), string or stream, every configuration, every type, every content the uninitialised local variable of the builder may have", "why_tests_cant": "the builders read into a default initialised variable, whose numbers happen to be zero in most test runs; that no such value shows through holds or fails only over all its possible contents and all inputs", "anchors": ["src/Serialize/JsonThor.h: jsonBuilder", "src/Serialize/BsonThor.h: bsonBuilder", "src/Serialize/YamlThor.h: yamlBuilder", "src/Serialize/Importer.h: Importer::extract, operator>>", "src/Serialize/Serialize.tpp: DeSerializationForBlock, HeedAllValues"]}
{"id": "C93", "title": "An export that broke off is the beginning of the document and is reported", "statement": "If the output stream of a JSON or BSON export breaks down after some number of bytes (full disk, closed connection), exactly the beginning of the document that fits has arrived, nothing follows it, the stream and the result of the call report the failure, and importing what arrived never reports success.", "quantifier": "every value of every type, every layout, every number of bytes after which the stream breaks down, with and without exceptions enabled on the stream; every type, mode and policy of the later import", "why_tests_cant": "the crash point is any byte of any document, and the reader may be given any type", "anchors": ["src/Serialize/Exporter.h: ExporterBase::inserter, operator<<", "src/Serialize/PrinterInterface.h: write, writeValue, ok, setFail", "src/Serialize/JsonPrinter.cpp", "src/Serialize/BsonPrinter.cpp", "src/Serialize/Importer.h: Importer::extract"]}
{"id": "C94", "title": "An import delivers a value of the type", "statement": "Whatever the input, an object that was filled by an import is a value of its C++ type: every number is in the range of its type, every enumerator is a declared one, fixed size containers keep their length, sets and maps are in order and without forbidden duplicates, a variant holds one of its alternatives, and a pointer to a polymorphic class points to an object of that class or of one derived from it. A document that names any other class is refused.", "quantifier": "every format (JSON, BSON, YAML), string and stream, every input (valid or not), every configuration, every program of classes, enums, tuples, variants and containers, every former content of the object", "why_tests_cant": "the input is arbitrary, possibly hostile, and the invariant has to hold at every depth of every type", "anchors": ["src/Serialize/Importer.h: Importer::extract", "src/Serialize/Serialize.tpp: DeSerializationForBlock, getPolymorphicClassName", "src/Serialize/SerUtil.h: SerializerForBlock, MemberInserter", "src/Serialize/Traits.h: PolyMorphicRegistry::getNamedTypeConvertedTo", "src/Serialize/JsonManualLexer.h: scan", "src/Serialize/BsonParser.h: getIntValue, getFloatValue", "src/Serialize/YamlParser.cpp: scan"]}
{"id": "C95", "title": "A complete document that has room in the type does nothing undefined", "statement": "Importing a complete JSON, BSON or YAML document comes to an end with a value of the type or with an exception, without undefined behaviour, provided that its arrays are no longer than the fixed size containers they are read into, the classes it names are derived from the class of the pointer, and (JSON from a string) its numbers are in the range of the type they are read into. Nothing is asked of the parts of the document that do not match the type: any kind of value may stand anywhere.", "quantifier": "every document of JSON, BSON and YAML, from strings and streams, with anything behind it; every program of classes, enums, tuples, arrays, sets, maps, optionals, pointers, variants; every former content of the object; every mode", "why_tests_cant": "documents and types are unbounded, and undefined behaviour is not visible in a test that happens to give the right value", "anchors": ["src/Serialize/Serialize.tpp: DeSerializationForBlock, DeSerializer", "src/Serialize/SerUtil.h", "src/Serialize/BsonParser.cpp", "src/Serialize/YamlParser.cpp", "src/Serialize/JsonParser.cpp"]}
{"id": "C96", "title": "Only JSON is imported as JSON", "statement": "If an import from a JSON string reports success, the text begins with a JSON document: white space and one complete value, with matching brackets, one comma between elements and between members, and a key and a colon in front of each member's value; with validateNoTrailingData nothing but white space follows. White space, strings, numbers and literals are those of RFC 8259.", "quantifier": "every byte string, of any length and with any bytes, every type, every former content of the object, every mode and every setting of the importer", "why_tests_cant": "the texts that are not JSON are unboundedly many; a test tries some of them", "anchors": ["src/Serialize/JsonParser.cpp: getNextToken, stateTable", "src/Serialize/JsonManualLexer.cpp: yylex, ignoreRawValue, getString, checkFixed, readNumber", "src/Serialize/StringInput.h", "src/Serialize/Importer.h: extract", "src/Serialize/Serialize.tpp: DeSerializationForBlock"]}
{"id": "C97", "title": "What a document does not mention stays as it was", "statement": "An import into an object that already has values changes only what the document mentions. After a successful import every member of a class, own or inherited, every entry of a std::map and every element of an array, tuple or pair, at any depth and through engaged std::optionals, for which the document has no value, has the value it had before.", "quantifier": "every type, every former content of the object, every document, every place in the object, every mode; JSON and BSON from strings and streams, YAML", "why_tests_cant": "members are written through a chain of maps, offsets and references, once per member of the document; a test sees some types and some documents", "anchors": ["src/Serialize/Serialize.tpp: DeSerializationForBlock, HeedAllValues, DeSerializer::parse", "src/Serialize/SerUtil.h: DeSerializer for std::map, std::array, std::tuple, std::pair; getInputValue of std::optional", "src/Serialize/Importer.h: extract"]}
{"id": "C98", "title": "A failed import leaves a valid object", "statement": "When an import throws or fails half way, the object it was reading into can still be used: it is a value of its type (numbers in range, containers in order, registered dynamic types, enumerators of the enumeration), nothing in it dangles, and what is under a name that does not occur in the text is what it was before the call.", "quantifier": "every type, every former content of the object, every text or sequence of bytes or YAML events, valid or not, every point at which the import stops, every mode; JSON and BSON from strings and streams, YAML", "why_tests_cant": "an import can stop after every byte of every text, in the middle of every type; a test sees some of these", "anchors": ["src/Serialize/Serialize.tpp: DeSerializationForBlock (all kinds), DeSerializer::parse", "src/Serialize/SerUtil.h: GetInputValue, ContainerEmplacer", "src/Serialize/ThorsSerializerUtil.h: Traits<T*>::release, alloc", "src/Serialize/Importer.h: extract"]}
{"id": "C99", "title": "A laxer mode accepts more and reads the same", "statement": "What is imported with success in Exact mode is imported with success in Strict mode, and what is imported in Strict mode is imported in Weak mode; the object, the result of the call and the position of the input are the same.", "quantifier": "every type, every former content, every text, byte sequence or event sequence, valid or not; JSON and BSON from strings and streams, YAML", "why_tests_cant": "the mode is consulted at every member of every nested object; a test compares the modes on some documents", "anchors": ["src/Serialize/ParserConfig.h: ParseType", "src/Serialize/ParserInterface.cpp: ignoreValue", "src/Serialize/Serialize.tpp: DeSerializationForBlock<Map>::scanObject, HeedAllValues"]}
{"id": "C100", "title": "Documents read one after the other add up", "statement": "Reading a document and then another one into the same object, container or optional has the same effect as reading one document with the members, or elements, of the first followed by those of the second: the same value, or an exception.", "quantifier": "every class, sequence, associative container and optional of them, every former content, all pairs of documents, Strict and Weak mode; JSON and BSON from strings, JSON from streams, YAML", "why_tests_cant": "it relates three imports of arbitrary documents", "anchors": ["src/Serialize/Serialize.tpp: DeSerializationForBlock", "src/Serialize/SerUtil.h: MapLoader, emplace", "src/Serialize/Importer.h: extract"]}
{"id": "C101", "title": "Reading a document again changes nothing", "statement": "After a document has been read into an object, reading the same document into it again succeeds and leaves it as it is.", "quantifier": "every type, every former content, every document, every mode; JSON and BSON from strings and streams, YAML", "why_tests_cant": "it relates two imports of arbitrary documents into arbitrary objects", "anchors": ["src/Serialize/Serialize.tpp: DeSerializationForBlock", "src/Serialize/SerUtil.h: emplace_back, insert, operator[]", "src/Serialize/Importer.h: extract"]}
{"id": "C102", "title": "The same document in JSON and in BSON gives the same object", "statement": "If a JSON text is imported with success, then a BSON document that says the same (same shape, same names in the same order, same strings and truth values, the same integers as int32 or int64, each number with a fraction as the nearest double) is imported with success into the same object, with the same value.", "quantifier": "every type, every former content, every JSON document and every BSON document that says the same, every mode and setting of the parser, every continuation of the input; BSON from strings and streams", "why_tests_cant": "it relates two parsers on all pairs of documents with the same content", "anchors": ["src/Serialize/JsonParser.cpp", "src/Serialize/BsonParser.cpp: getNextToken", "src/Serialize/Serialize.tpp: DeSerializer::parse", "src/Serialize/BsonParser.h: getValue, getIntValue, getFloatValue"]}
{"id": "C103", "title": "What an AnyBlock captures from a JSON stream, BSON or YAML is the compact JSON text of the document", "statement": "Importing a document from a JSON stream, from BSON or from YAML into an object for arbitrary content gives the JSON text of that document without white space: a well-formed JSON text that denotes the same value, appended to what the object already held. A JSON stream is left standing directly behind the value.", "quantifier": "every document (no bound on depth or size), every former content of the object, every continuation of the input", "why_tests_cant": "it ranges over all documents of three formats and compares the captured text with the grammar of JSON", "anchors": ["src/Serialize/Traits.h: AnyBlock", "src/Serialize/Serialize.tpp: AnyBlock", "src/Serialize/BsonParser.cpp: getRawValue", "src/Serialize/YamlParser.cpp: getRawValue", "src/Serialize/JsonParser.cpp: getRawValue"]}
{"id": "C104", "title": "Whatever was imported can be exported, and the export brings it back", "statement": "An object that an import (JSON, BSON or YAML, from strings or streams, any mode) has filled can be exported to JSON, BSON and YAML, and importing the export into a fresh object gives the same object.", "quantifier": "every type, every former content, every input that is imported with success, every layout, every mode of the second import", "why_tests_cant": "it ranges over all inputs of all five readers, combined with three writers", "anchors": ["src/Serialize/Serialize.tpp: DeSerializer, Serializer", "src/Serialize/JsonPrinter.cpp", "src/Serialize/BsonPrinter.cpp", "src/Serialize/YamlPrinter.cpp", "src/Serialize/Importer.h: Importer", "src/Serialize/Exporter.h: Exporter"]}
{"id": "C105", "title": "Different objects have different exports", "statement": "If the exports of two objects of one type are the same, byte for byte (also when they were written in different layouts), the objects are equal. So an export can serve as a key or be compared in place of the object.", "quantifier": "all pairs of objects of every type, all pairs of layouts and indentations; JSON, BSON and YAML", "why_tests_cant": "it is a statement about all pairs of objects", "anchors": ["src/Serialize/Serialize.tpp: Serializer", "src/Serialize/JsonPrinter.cpp", "src/Serialize/BsonPrinter.cpp", "src/Serialize/YamlPrinter.cpp"]}
{"id": "C106", "title": "Importing BSON comes to an end and stays in bounds", "statement": "Importing a BSON document, well-formed or not, complete or cut off, from a std::string or from a std::istream (in whatever state), into any type, comes to an end: it returns or throws. It never loops for ever, never reads behind the end of the input, never touches an empty stack of the parser.", "quantifier": "every sequence of bytes, every state of the stream, every type and former content, every mode", "why_tests_cant": "sizes, lengths and nesting in hostile input are unbounded, and a test that loops does not report", "anchors": ["src/Serialize/BsonParser.cpp: getNextToken, readKey, readEndOfContainer, ignoreDataValue", "src/Serialize/BsonParser.h: readLE, readInt, readFloat", "src/Serialize/StringInput.h: read, readTo, ignore", "src/Serialize/ParserInterface.cpp: ignoreTheValue, ignoreTheMap, ignoreTheArray"]}
{"id": "C107", "title": "Importing JSON from a stream comes to an end and stays in bounds", "statement": "Reading a value with `stream >> jsonImporter(value)` from a std::istream on any bytes, in any state of the stream, whether it can tell its position or not, comes to an end: the value is stored, or an exception is thrown or the stream marked as failed. It never loops for ever, never indexes outside of a buffer or an object, never pops the empty stack of the parser.", "quantifier": "every sequence of bytes, every position and state of the stream, every type and former content, every mode and exception policy", "why_tests_cant": "the texts that break off in the middle of something, and the states a stream can be in by then, are unbounded; a test that loops does not report", "anchors": ["src/Serialize/JsonManualLexer.cpp: getStringInto, readNumber, readDigits, ignoreRawValue, checkFixed, yylex", "src/Serialize/JsonParser.cpp: getNextToken", "src/Serialize/ParserInterface.h: ReadValue, PeekNextNonSpaceValue, readTo, ignore", "src/Serialize/Importer.h: extract"]}
{"id": "C108", "title": "Only BSON is imported as BSON", "statement": "If importing bytes as BSON, from a string or a stream, reports success, then what was read is a BSON document: every document and array has the length written in front of it and ends with NUL, every element has a type byte, a key that ends with NUL and a payload of the form its type prescribes; a stream is left right behind that document. Bytes that merely happen to satisfy the reader are not accepted.", "quantifier": "every sequence of bytes, every position of the stream, every type and former content, every mode", "why_tests_cant": "the bytes that are not BSON are unbounded, and nested lengths that disagree can make up for each other; a test feeds a few broken documents", "anchors": ["src/Serialize/BsonParser.cpp: BsonParser::getNextToken, readKey, readEndOfContainer, readString, readSize, ignoreDataValue", "src/Serialize/ParserInterface.h: read, ignore"]}
{"id": "C109", "title": "Bytes behind a BSON document", "statement": "With validateNoTrailingData, importing a BSON document from a string or a stream succeeds exactly if the document can be imported and at most white space follows; without it, whatever follows is left alone and does not matter. In both cases the outcome is reported as configured: success, `false` with a failed stream, or an exception; the program is never terminated.", "quantifier": "every document, every sequence of bytes behind it, every type and former content, every mode and exception policy, strings and streams", "why_tests_cant": "what follows a document is unbounded, and the outcome depends on how far the parser has read when the check is made, which differs between the kinds of documents", "anchors": ["src/Serialize/Importer.h: extract", "src/Serialize/Serialize.h: DeSerializer::~DeSerializer", "src/Serialize/BsonParser.cpp: BsonParser::getNextToken, readEndOfContainer", "src/Serialize/StringInput.h: readValue"]}
{"id": "C110", "title": "Shared pointers in every format", "statement": "Exporting an object graph built with std::shared_ptr writes the data of each object once, in BSON with all sizes right, in YAML, and in JSON; into a std::string exactly what is written into a stream, although that takes two passes. Importing it again, from a string or from a stream, builds the same graph: two pointers point to the same object exactly if they did before; and nothing behind the document is read. A null pointer at the top, which is no BSON document, is refused.", "quantifier": "every graph of objects, sequences and shared pointers without cycles, every format, strings and streams, Weak and Strict mode, everything that may follow", "why_tests_cant": "graphs are unbounded; the size of a pointer depends on whether its object was already written, so that computing sizes changes the table that decides what is written", "anchors": ["src/Serialize/SerUtil.h: SharedInfo, getPrintSize", "src/Serialize/PrinterInterface.h: addShared", "src/Serialize/ParserInterface.h: getShared", "src/Serialize/Serialize.tpp: SerializerForBlock", "src/Serialize/BsonThor.h: bsonExporter"]}
{"id": "C111", "title": "Imported shared pointers point to something", "statement": "Whatever the input is: if importing a type that contains std::shared_ptr succeeds, every shared pointer in the result is null or points to an object of exactly the type the pointer was declared for, that object exists, was not deleted, is itself a proper value of its type, and no object can be reached from itself, so that everything is released with the last pointer.", "quantifier": "every sequence of bytes or of libyaml events, every type, mode and format, strings and streams", "why_tests_cant": "a document can name objects in any order, twice, under numbers of objects of another type, inside of themselves or not at all; what matters is the table of all of them", "anchors": ["src/Serialize/ParserInterface.h: getShared", "src/Serialize/Serialize.tpp: DeSerializationForBlock", "src/Serialize/ThorsSerializerUtilTypes.h: SharedInfo"]}
{"id": "C112", "title": "What a document means for shared pointers", "statement": "Importing a document into a type with shared pointers depends on the tree of the document alone and does what a short recursive function of it says: an object with `data` makes a new object, known under its number from then on; without `data` it is the pointer of the same type last imported under that number, or an error; null is the null pointer; the order of the two members does not matter. The same function holds for JSON, BSON and YAML, for strings and streams.", "quantifier": "every document, written by the exporter or not, every layout, every type, mode and format", "why_tests_cant": "documents nest without bound, and a reference depends on everything read before it", "anchors": ["src/Serialize/ParserInterface.h: getShared", "src/Serialize/Serialize.tpp: DeSerializationForBlock", "src/Serialize/ThorsSerializerUtilTypes.h: SharedInfo"]}
{"id": "C113", "title": "Importing shared pointers is defined behaviour", "statement": "Importing a type with shared pointers comes to an end and does nothing undefined, whatever the input is.", "quantifier": "every sequence of bytes or of libyaml events, every type, mode and format, strings and streams", "why_tests_cant": "the input may be cut, malformed or hostile anywhere", "anchors": ["src/Serialize/ParserInterface.h: getShared", "src/Serialize/Serialize.tpp: DeSerializationForBlock", "src/Serialize/ThorsSerializerUtilTypes.h: SharedInfo"]}
{"id": "C114", "title": "No object is lost while importing shared pointers", "statement": "Whatever the input is: if importing a type with shared pointers succeeds, every object that was created on the way was either deleted again or handed to a shared pointer, and none of those handed to a shared pointer was deleted. So nothing is leaked and nothing is deleted twice, even if a document gives the data of an object several times.", "quantifier": "every sequence of bytes or of libyaml events, every type, mode and format, strings and streams", "why_tests_cant": "members can be repeated in any object, at any depth, and objects are made inside of objects that are then deleted", "anchors": ["src/Serialize/ParserInterface.h: getShared", "src/Serialize/Serialize.tpp: DeSerializationForBlock", "src/Serialize/ThorsSerializerUtilTypes.h: SharedInfo", "src/Serialize/ThorsSerializerUtil.h: Traits<T*>::release"]}
{"id": "C115", "title": "Classes with stream operators", "statement": "A class registered with ThorsAnvil_MakeTraitCustom is exported as the text its operator<< writes, in place of the value, and imported by giving its operator>> the text that stands in the document; so if operator>> reads what operator<< writes, exporting an object, or a vector of them, and importing it gives the same back in every format, and if operator>> fails the import fails.", "quantifier": "every class, that is every pair of stream operators, every object, every list of objects, every document and layout, JSON, BSON and YAML", "why_tests_cant": "the text is up to the user's class: tests can only try some of them", "anchors": ["src/Serialize/Traits.h: ThorsAnvil_MakeTraitCustom", "src/Serialize/Serialize.tpp: DeSerializationForBlock, SerializerForBlock (Custom_Depricated)", "src/Serialize/JsonPrinter.cpp: addRawValue", "src/Serialize/BsonPrinter.h: addRawValue", "src/Serialize/BsonParser.cpp: getRawValue"]}
{"id": "C116", "title": "Enums of flags", "statement": "Printing a value of an enum made with ThorsAnvil_MakeEnumFlag writes the names of exactly the flags that are set, in the order of their bits, with bars between them, or `empty`; so different values are printed differently. The operators &, | and ^ act on each flag alone. Printing is defined for every value of the type.", "quantifier": "every enum of flags, every value of its type, every pair of values for the operators", "why_tests_cant": "there are 2^32 values, and the names are the user's", "anchors": ["src/Serialize/Traits.h: ThorsAnvil_MakeEnumFlag"]}
{"id": "C117", "title": "Imports do not disturb each other", "statement": "What an import of BSON puts into an object of a class with stream operators depends on its document alone: not on what was imported before, not on what other threads import at the same time, and also not if the import fails.", "quantifier": "every class with stream operators, every history of imports, every document (complete, malformed or cut), every schedule of the threads", "why_tests_cant": "the schedules and the histories are unbounded", "anchors": ["src/Serialize/BsonParser.cpp: getRawValue", "src/Serialize/BsonParser.cpp: readBinary", "src/Serialize/StringInput.h: read", "src/Serialize/Serialize.tpp: scanObject"]}
{"id": "C118", "title": "Exporting any value is defined behaviour", "statement": "Exporting any value a program can hold, in any of the three formats, ends with a document or an exception and never with undefined behaviour: null pointers, empty optionals and containers, enumerators without a name, strings with any bytes, any polymorphic pointee and any variant.", "quantifier": "every type the library can export, every value of it (any size and depth), every configuration of the printers", "why_tests_cant": "types and values are unbounded", "anchors": ["src/Serialize/Traits.h: getPrintSize", "src/Serialize/Traits.h: serializeForBlock", "src/Serialize/Serialize.tpp: print", "src/Serialize/BsonPrinter.cpp: writeKey", "src/Serialize/YamlPrinter.cpp: openMap", "src/Serialize/JsonPrinter.cpp: openMap"]}
{"id": "C119", "title": "A failed export is reported, and the program goes on", "statement": "An export that fails (an enumerator without a name, an empty optional, a text the format cannot hold) is reported the way the configuration asks, by an exception or by the result and the state of the stream. The program is never ended by it. A string that was the target of a failed export is what it was before.", "quantifier": "every type and value, JSON to streams and strings, BSON to streams, YAML with any emitter that follows the event grammar, every point of failure, every policy about exceptions", "why_tests_cant": "the failure may be at any depth inside any open block, and every closing call that runs during the unwinding matters", "anchors": ["src/Serialize/Exporter.h: ExporterBase::inserter", "src/Serialize/Serialize.tpp: SerializerForBlock::~SerializerForBlock", "src/Serialize/Serialize.h: Serializer::~Serializer", "src/Serialize/YamlPrinter.cpp: ~YamlPrinter, emit", "src/Serialize/PrinterInterface.h: setFail"]}
{"id": "C120", "title": "What a failed export leaves behind is not a document", "statement": "When an export fails (an enumerator without a name, an empty optional), what it has written so far is not a complete document of another value: a consumer of the output cannot import it successfully.", "quantifier": "every sequence of enumerators or optionals, every position of the element that cannot be exported, every layout and policy, streams and strings", "why_tests_cant": "the failure may be at any position of sequences of any length", "anchors": ["src/Serialize/Serialize.tpp: SerializerForBlock::~SerializerForBlock", "src/Serialize/Exporter.h: ExporterBase::inserter", "src/Serialize/JsonPrinter.cpp: closeArray", "src/Serialize/StringOutput.h"]}
{"id": "C121", "title": "A class with its own serialiser is written by the function for the format", "statement": "A class registered with its own serialiser is written by its writeJson, writeBson or writeYaml and read by its readJson, readBson or readYaml, according to the format in use, alone, as a member and in containers. If it writes itself as a value of another type does, its export is that of this value.", "quantifier": "every class, every set of functions it provides, every object and every vector of objects, every stream (also ones that break down)", "why_tests_cant": "classes and functions are the user's; sequences are unbounded", "anchors": ["src/Serialize/CustomSerialization.h: CustomSerializerBreakerFix, DefaultCustomSerializer", "src/Serialize/CustomSerialization.tpp: writeCustomOld, readCustomOld", "src/Serialize/YamlPrinter.h: formatType", "src/Serialize/Serialize.tpp: SerializerForBlock<TraitType::Custom_Serialize>"]}
{"id": "C122", "title": "YAML export to a string gives the text of the stream", "statement": "Exporting a value as YAML to a std::string leaves exactly the text in it that the same export writes to a stream, whatever the string held before, and writes nothing outside the string.", "quantifier": "every value, every configuration, every text libyaml makes and every way it cuts it into pieces, every former content of the string", "why_tests_cant": "text, cuts and former contents are unbounded", "anchors": ["src/Serialize/YamlPrinter.cpp: thorsanvilYamlStreamWritter, complete, reset, closeDoc", "src/Serialize/YamlPrinter.h: outputFirstLine", "src/Serialize/StringOutput.h: write, preflightSize, reserveSize, finalizePrint", "src/Serialize/Serialize.tpp: Serializer::print"]}
{"id": "C123", "title": "Objects of a class that names its type field come back by value", "statement": "An object of a class with ThorsAnvil_TypeFieldName that is exported and imported by value comes back as it was, in every format and in every strictness mode.", "quantifier": "every such class, every object, every layout and marker, JSON, BSON and YAML, every strictness mode", "why_tests_cant": "classes, members and values are unbounded", "anchors": ["src/Serialize/Serialize.tpp: SerializerForBlock<TraitType::Map>::printMembers, DeSerializationForBlock<TraitType::Map>::scanObject, scanMember", "src/Serialize/PolymorphicMarker.h: CheckForPoly, getPolymorphicMarker", "src/Serialize/Traits.h: ThorsAnvil_TypeFieldName"]}
{"id": "C124", "title": "A variant comes back with the alternative it held", "statement": "A std::variant of classes that is exported and imported holds the same alternative again with the same members, whatever it held before; a document that names a class which is not one of the alternatives is refused.", "quantifier": "every list of alternatives, every alternative, every object, every layout and marker, JSON, BSON and YAML", "why_tests_cant": "lists of alternatives, classes and values are unbounded", "anchors": ["src/Serialize/Serialize.tpp: readVariant, readVariantValue, getPolymorphicClassName, printPolyMorphicObject", "src/Serialize/PolymorphicMarker.h: getPolymorphicMarker", "src/Serialize/Traits.h: ThorsAnvil_VariantSerializer, ThorsAnvil_SerializeName, ThorsAnvil_TypeFieldName"]}
{"id": "C125", "title": "Only the text of an ObjectID is taken for one", "statement": "Making an ObjectID of a text, or importing one from a JSON string, gives the identifier that its 24 hexadecimal digits (lower or upper case) denote; any other text is refused.", "quantifier": "every text", "why_tests_cant": "texts are unbounded", "anchors": ["src/Serialize/MongoUtility.h: readNumberMaxLenFromStream, operator>>(std::istream&, ObjectID&), operator>>(JsonParser&, ObjectID&)", "src/Serialize/MongoUtility.cpp: ObjectID::ObjectID(std::string const&)"]}
{"id": "C126", "title": "Time stamps compare in the order of time", "statement": "BsonTimeStamps compare in the order of their times, those of the same time in the order of their increments (the order of the 64 bit number of bsonspec); two are equal exactly if time and increment are.", "quantifier": "every pair of time stamps", "why_tests_cant": "2^128 pairs", "anchors": ["src/Serialize/MongoUtility.h: BsonTimeStamp::operator<, BsonTimeStamp::operator=="]}
{"id": "C127", "title": "Writing an ObjectID to a stream does not change the stream's format", "statement": "Writing an ObjectID or a BsonTimeStamp to a std::ostream writes its text whatever the format state of the stream is, and leaves that state (flags, precision, fill character) as it was.", "quantifier": "every ObjectID and time stamp, every format state", "why_tests_cant": "values, widths, precisions and fill characters are unbounded", "anchors": ["src/Serialize/MongoUtility.h: Private::StreamFormatterNoChange, operator<<(std::ostream&, ObjectID const&), operator<<(std::ostream&, BsonTimeStamp const&)"]}
{"id": "C128", "title": "Only integers are taken for integers from a stream", "statement": "Importing JSON from a stream into an integer succeeds only if the text, behind white space, begins with an integer as JSON writes it: at most one minus sign, then digits, and no fraction or exponent behind them.", "quantifier": "every text, every integer type, every old value", "why_tests_cant": "texts are unbounded", "anchors": ["src/Serialize/ParserInterface.h: ReadValue::readNumber, ReadValue::checkZero, ReadValue::validateResult, ReadValue::operator()(std::istream*, T*)", "src/Serialize/JsonManualLexer.h: JsonManualLexer::scan"]}
{"id": "C129", "title": "Only numbers are taken for floating point numbers from a stream", "statement": "Importing JSON from a stream into a float, double or long double succeeds only if the text, behind white space, begins with a number as JSON writes it.", "quantifier": "every text, every floating point type, every old value", "why_tests_cant": "texts are unbounded", "anchors": ["src/Serialize/ParserInterface.h: ReadValue::readNumber, ReadValue::checkZero, ReadValue::operator()(std::istream*, T*)", "src/Serialize/JsonManualLexer.h: JsonManualLexer::scan"]}
{"id": "C130", "title": "A date written to a stream is read back", "statement": "A UTCDateTime written to a std::ostream with operator<< and read from that text with operator>> is the same date.", "quantifier": "every date, every time zone", "why_tests_cant": "2^64 dates in every time zone", "anchors": ["src/Serialize/MongoUtility.h: operator<<(std::ostream&, UTCDateTime const&), operator>>(std::istream&, UTCDateTime&)"]}
{"id": "C131", "title": "A key cannot add elements to a BSON document", "statement": "Exporting a std::map<std::string, int32_t> to BSON and importing the bytes gives a map with exactly the entries that were exported: no choice of the characters of a key makes the reader find other entries.", "quantifier": "every map: any number of entries, any characters in the keys, any values", "why_tests_cant": "keys are arbitrary strings, often chosen by someone else", "anchors": ["src/Serialize/BsonPrinter.cpp: BsonPrinter::writeKey, BsonPrinter::addKey", "src/Serialize/BsonParser.cpp: BsonParser::readKey", "src/Serialize/BsonUtil.h"]}
{"id": "C132", "title": "A key cannot add members to a JSON document", "statement": "Exporting a std::map<std::string, int32_t> to JSON and importing the text gives a map with exactly the entries that were exported: no choice of the characters of a key makes the reader find other entries.", "quantifier": "every map: any number of entries, any characters in the keys, any values; every layout", "why_tests_cant": "keys are arbitrary strings, often chosen by someone else", "anchors": ["src/Serialize/JsonPrinter.cpp: JsonPrinter::addKey", "src/Serialize/JsonManualLexer.cpp: JsonManualLexer::lex"]}
{"id": "C133", "title": "Of a repeated member the last one counts", "statement": "Importing a document in which an object gives a member of a class more than once has the same result as importing the document in which only the last one is left, at any depth.", "quantifier": "every document, class and mode, any number of repetitions at any depth; JSON, BSON and YAML", "why_tests_cant": "which members are repeated, where and how often is up to whoever wrote the document", "anchors": ["src/Serialize/Serialize.tpp: DeSerializer::scanObjectMembers", "src/Serialize/SerUtil.h"]}
{"id": "C134", "title": "Arrays are read and written element by element", "statement": "A JSON array can be imported into a std::vector exactly if each of its elements, as a document by itself, can be imported into a fresh object of the element type; the results are appended in their order. The same holds for JSON in streams, for YAML sequences, and for BSON arrays of documents and arrays. The JSON text without white space of a sequence container, of a tuple, and of a std::map with strings for keys, consists of the texts its elements have when they are exported by themselves, with commas between them. The YAML events of a sequence container, a tuple and such a map are those of its elements (in a map each behind its key), between a start and an end.", "quantifier": "every array of any length whose elements are any documents (in Weak mode: without strings the reader cannot skip, see C16), every element type, every old content of the vector; every container with a document", "why_tests_cant": "element types and lengths are unbounded; that nothing is carried over from one element to the next has to hold for every element", "anchors": ["src/Serialize/Serialize.tpp: DeSerializationForBlock, SerializerForBlock", "src/Serialize/SerUtil.h", "src/Serialize/JsonPrinter.cpp: JsonPrinter::openArray, JsonPrinter::openMap, JsonPrinter::addKey"]}
{"id": "C135", "title": "Objects are read member by member", "statement": "After a JSON object was imported into an object of a class, each member that the JSON object names is what importing the text of its value alone into the old member gives; and if each of these single imports succeeds, so does the import of the object (unless the mode is Exact). The first half also holds for JSON in streams, for YAML mappings, and in BSON for members that hold documents or arrays.", "quantifier": "every class (with base classes, members of any type), every JSON object with any number of members with distinct keys (in Weak mode: without strings the reader cannot skip, see C16), every old object", "why_tests_cant": "classes, documents and old objects are unbounded; that no member disturbs another has to hold for all of them", "anchors": ["src/Serialize/Serialize.tpp: DeSerializer::scanObjectMembers, DeSerializationForBlock"]}
{"id": "C136", "title": "Objects are written member by member", "statement": "The JSON text without white space of an object of a class consists of the texts its members have when they are exported by themselves, each behind its name in quotes and a colon, with commas between them: first the members the class declares, in the order of their declaration, then those of its base classes. Members hidden by a filter, and without a filter empty optionals, are left out. Behind a pointer to a polymorphic class, in a variant, and where the class has a type field, the name of the class comes first under the marker (the configured one, else the type field of the class, else __type). The same holds for the events of YAML documents.", "quantifier": "every class (with any base classes, members of any type, filter, renamed members), every object of it that has a document, every configured marker", "why_tests_cant": "classes and member types are unbounded; that the text of a member does not depend on its neighbours has to hold for all of them", "anchors": ["src/Serialize/Serialize.tpp: SerializerForBlock, SerializeMember, Serializer::printMembers, Serializer::printObjectMembers, SerializerForBlock::printPolyMorphicMembers", "src/Serialize/JsonPrinter.cpp: JsonPrinter::openMap, JsonPrinter::addKey"]}
{"id": "C137", "title": "Maps are read entry by entry", "statement": "After a JSON object was imported into a std::map with strings for keys, each entry the JSON object names is what importing the text of its value alone into the entry that was there gives (into a fresh object if there was none), and every other entry is what it was; if each of these single imports succeeds, so does the import of the object. The first half also holds for JSON in streams, for YAML mappings and, for entries that are documents or arrays, for BSON.", "quantifier": "every type of values, every JSON object with any number of members with distinct keys (in Weak mode: without strings the reader cannot skip, see C16), every old content of the map", "why_tests_cant": "types of values, documents and old contents are unbounded; that no entry disturbs another has to hold for all of them", "anchors": ["src/Serialize/SerUtil.h: Traits<std::map<std::string, Value>>::MemberExtractor", "src/Serialize/Serialize.tpp: DeSerializationForBlock"]}
{"id": "C138", "title": "Arrays of fixed size and tuples are read element by element", "statement": "After a JSON array was imported into a std::array or a tuple, each element the JSON array has is what importing its text alone into the old element at the same place gives, and the elements behind the last one are what they were; if each element has a place and these single imports succeed, so does the import of the array. The first half also holds for JSON in streams, for YAML sequences and, for elements that are documents or arrays, for BSON.", "quantifier": "every element type, size and list of types, every JSON array of any documents (in Weak mode: without strings the reader cannot skip, see C16), every old content", "why_tests_cant": "types, sizes and documents are unbounded; that no element disturbs another has to hold for all of them", "anchors": ["src/Serialize/SerUtil.h: Traits<std::array>, ContainerTuppleExtractor, Traits<std::tuple>", "src/Serialize/Serialize.tpp: DeSerializationForBlock<TraitType::Array>"]}
{"id": "C139", "title": "Optionals and pointers are what they hold", "statement": "Reading any bytes as JSON into a std::optional has the outcome of reading them into what the optional holds (a fresh object if it is empty), with the result put into the optional; the same holds on streams and for any YAML events. So the document null does not empty an optional number but is refused. Reading a document other than null into a std::unique_ptr or plain pointer has the outcome of reading it into a fresh object, and null gives a null pointer, in JSON (strings and streams) and YAML. An optional that holds something and a pointer to something have the JSON text and YAML events of that.", "quantifier": "every type of content, every input of any length (for pointers: every document; in Weak mode without strings the reader cannot skip, see C16), every old value, every layout", "why_tests_cant": "types and inputs are unbounded; the claim is an equality of outcomes, errors included", "anchors": ["src/Serialize/SerUtil.h: Traits<std::optional>, Traits<std::unique_ptr>", "src/Serialize/Serialize.tpp: DeSerializationForBlock<TraitType::Reference>, DeSerializationForBlock<TraitType::Pointer>, SerializerForBlock<TraitType::Reference>, SerializerForBlock<TraitType::Pointer>"]}
{"id": "C140", "title": "How a JSON document is spelled does not matter", "statement": "Take two JSON documents of the same shape whose strings and keys denote the same bytes, in whatever mixture of characters and escapes, and whose numbers have the same values, whatever their digits and exponents, with any white space between the tokens. Reading one of them into an object succeeds exactly if reading the other does, and the resulting object is the same, from strings and from streams. Documents that differ only in white space have the same outcome from strings, errors included.", "quantifier": "every pair of such documents of any depth and size, every type and old value, every mode; integers and numbers with a fraction or exponent count as different, as do 0 and -0; surrogate pairs have the meaning the library gives them (C04); in Weak mode both documents without strings the reader cannot skip (C16)", "why_tests_cant": "documents, spellings, nesting and types are unbounded", "anchors": ["src/Serialize/JsonManualLexer.cpp: JsonManualLexer::yylex", "src/Serialize/JsonParser.cpp: JsonParser::getValue, JsonParser::getKey", "src/Serialize/UnicodeIterator.h: UnicodeWrapperIterator", "src/Serialize/Serialize.tpp: DeSerializer::parse"]}
