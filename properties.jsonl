{"id": "C01", "title": "Criterion values stay unambiguous", "statement": "Whatever sequence of addValuePair calls a client makes on a selection criterion type, no literal is ever bound to two numbers, no number is ever bound to two literals, an inclusive type holds only 0 (as \"none\") and single-bit values, and a rejected call leaves the type unchanged.", "quantifier": "every finite history of addValuePair(number, literal) calls on an exclusive or an inclusive type", "why_tests_cant": "The histories are unbounded and mix accepted and rejected calls; tests only try a few.", "anchors": ["parameter/SelectionCriterionType.cpp: addValuePair, getAtomicNumericalValue, getLiteralValue"]}
{"id": "C02", "title": "Criterion literal and number are inverse", "statement": "For a type reached by any addValuePair history, getLiteralValue of the number that getNumericalValue gave for a registered literal gives that literal back, and conversely. For an inclusive type, the text \"A|B|...\" denotes the bitwise OR of the parts and is refused exactly when some part is not registered.", "quantifier": "every reachable criterion type, every non-empty literal free of the separator for inclusive types, every list of literals", "why_tests_cant": "Ranges over all registered tables and all combinations of states.", "anchors": ["parameter/SelectionCriterionType.cpp: getNumericalValue, getLiteralValue, getAtomicNumericalValue", "utility/Tokenizer.cpp: split"]}
{"id": "C03", "title": "Formatted criterion state can be read back", "statement": "The state text printed for an inclusive criterion (parts joined by '|') parses back to the same number for every state made only of registered bits.", "quantifier": "every reachable inclusive type and every 32-bit state", "why_tests_cant": "2^32 states times all tables.", "anchors": ["parameter/SelectionCriterionType.cpp: getFormattedState, getNumericalValue"]}
{"id": "C04", "title": "Criterion match verbs mean what they say", "statement": "Is and IsNot are complementary on every state; Includes v holds iff every bit of v is set in the state; Excludes v holds iff no bit of v is set; Includes and Excludes never hold together for a non-zero v.", "quantifier": "every criterion state and every match value (32-bit)", "why_tests_cant": "2^64 combinations of state and match value.", "anchors": ["parameter/SelectionCriterion.cpp: is, isNot, includes, excludes", "parameter/SelectionCriterionRule.cpp: matches"]}
{"id": "C05", "title": "Application rules evaluate as Boolean formulas", "statement": "A rule evaluates to the Boolean value of its formula: All is true iff every sub-rule is true (true when empty), Any is true iff some sub-rule is true (false when empty), at any nesting depth.", "quantifier": "every rule tree of any depth and width, every assignment of criterion states", "why_tests_cant": "Unbounded trees.", "anchors": ["parameter/CompoundRule.cpp: matches", "parameter/SelectionCriterionRule.cpp: matches"]}
{"id": "C06", "title": "Rule text round-trips", "statement": "Parsing the text that getApplicationRule prints for a configuration gives back a rule that is equal to the original one.", "quantifier": "every rule tree over every set of criteria", "why_tests_cant": "Unbounded trees, unbounded names; a tester picks a few shapes.", "anchors": ["parameter/RuleParser.cpp: parse, iterate, next", "parameter/CompoundRule.cpp: parse, dump", "parameter/SelectionCriterionRule.cpp: parse, dump", "parameter/DomainConfiguration.cpp: getApplicationRule"]}
{"id": "C07", "title": "Rule parsing always ends with an answer", "statement": "setApplicationRule on any text whatsoever terminates and either succeeds or reports an error; it never aborts the process.", "quantifier": "every character string and every set of criteria", "why_tests_cant": "All strings.", "anchors": ["parameter/RuleParser.cpp: parse, iterate, next"]}
{"id": "C08", "title": "A refused rule changes nothing", "statement": "If setApplicationRule reports an error the configuration keeps the rule it had; if it succeeds getApplicationRule prints the new rule; after clearApplicationRule the configuration has no rule.", "quantifier": "every configuration state, every rule text", "why_tests_cant": "All rule texts and all previous rules.", "anchors": ["parameter/DomainConfiguration.cpp: setApplicationRule, clearApplicationRule, getApplicationRule, setRule"]}
{"id": "C09", "title": "Accepted rules are well typed", "statement": "A rule accepted from text only refers to existing criteria, only uses Is/IsNot on exclusive criteria, and only uses values the criterion's type knows.", "quantifier": "every rule text, every set of criteria", "why_tests_cant": "All strings.", "anchors": ["parameter/SelectionCriterionRule.cpp: parse, setMatchesWhen", "parameter/SelectionCriterionType.cpp: getNumericalValue"]}
{"id": "C10", "title": "Criterion modification tracking", "statement": "A criterion reports itself modified iff its state was really changed by a setCriterionState call since the last application of configurations; setting the same state is not a change.", "quantifier": "every history of setCriterionState and applyConfigurations calls", "why_tests_cant": "Unbounded histories.", "anchors": ["parameter/SelectionCriterion.cpp: setCriterionState, hasBeenModified, resetModifiedStatus", "parameter/ParameterMgr.cpp: doApplyConfigurations"]}
{"id": "C11", "title": "The first applicable configuration wins", "statement": "The configuration a domain selects is the first one, in the domain's configuration order, that has a rule and whose rule is true; a configuration with no rule is never selected; if none qualifies nothing is written and the last applied configuration is unchanged (an application forced by the end of the tuning mode first forgets it).", "quantifier": "every domain, every list of configurations and rules, every criteria state", "why_tests_cant": "Unbounded lists of configurations.", "anchors": ["parameter/ConfigurableDomain.cpp: findApplicableDomainConfiguration, apply", "parameter/DomainConfiguration.cpp: isApplicable"]}
{"id": "C12", "title": "Applying writes exactly the selected settings", "statement": "After applyConfigurations, the bytes of every element associated with a domain that switched configuration are those stored in the selected configuration, and every byte of the main blackboard that belongs to no element of a switching domain is unchanged.", "quantifier": "every structure, every set of domains with disjoint elements, every criteria state, every blackboard content", "why_tests_cant": "All blackboards, all layouts.", "anchors": ["parameter/ConfigurableDomain.cpp: apply", "parameter/DomainConfiguration.cpp: restore", "parameter/AreaConfiguration.cpp: restore, copyTo", "parameter/ParameterBlackboard.cpp: restoreFrom"]}
{"id": "C13", "title": "Applying twice changes nothing the second time", "statement": "If no criterion changed and no tuning happened since the last applyConfigurations, a new applyConfigurations writes nothing to the blackboard, changes no last-applied record and calls no syncer on behalf of a domain.", "quantifier": "every manager state", "why_tests_cant": "All states; a unit test observes a few.", "anchors": ["parameter/ConfigurableDomain.cpp: apply", "parameter/ConfigurableDomains.cpp: apply"]}
{"id": "C14", "title": "Leaving tuning mode re-establishes the selected configurations", "statement": "When tuning mode is switched off, every domain that has an applicable configuration has that configuration's settings in the main blackboard, whatever was tuned in between.", "quantifier": "every history of tuning operations before the switch", "why_tests_cant": "Unbounded tuning histories.", "anchors": ["parameter/ParameterMgr.cpp: setTuningMode, doApplyConfigurations", "parameter/ConfigurableDomain.cpp: apply"]}
{"id": "C15", "title": "Synchronisation order of an application", "statement": "During applyConfigurations all sequence-unaware domains are written before any synchronisation is done for them; their syncers are each called exactly once; sequence-aware domains are then written and synchronised element by element in their element order.", "quantifier": "every list of domains and elements", "why_tests_cant": "Any number of domains and elements in any order.", "anchors": ["parameter/ConfigurableDomains.cpp: apply", "parameter/ConfigurableDomain.cpp: apply", "parameter/SyncerSet.cpp: sync", "parameter/AreaConfiguration.cpp: restore"]}
{"id": "C16", "title": "Every collected syncer is called exactly once even after failures", "statement": "Synchronising a set of syncers calls each of them exactly once, whatever failures occur, returns success iff all succeeded and reports exactly the errors of the failing ones.", "quantifier": "every set of syncers, every pattern of failures", "why_tests_cant": "Exponential number of failure patterns.", "anchors": ["parameter/SyncerSet.cpp: operator+=, sync"]}
{"id": "C17", "title": "Last applied configuration always exists", "statement": "The last applied configuration a domain reports is always one of its current configurations, or none.", "quantifier": "every history of create, delete, rename, restore, apply and forced apply on a domain", "why_tests_cant": "Unbounded histories.", "anchors": ["parameter/ConfigurableDomain.cpp: apply, restoreConfiguration, deleteConfiguration, getLastAppliedConfigurationName"]}
{"id": "C18", "title": "Every configuration has settings for every element", "statement": "At any time each configuration of a domain holds exactly one settings area per element associated with the domain and no other, each of the element's size, and restoring or saving can never access memory outside an area or the main blackboard.", "quantifier": "every history of domain, configuration and element association operations", "why_tests_cant": "Unbounded histories.", "anchors": ["parameter/ConfigurableDomain.cpp: createConfiguration, doAddConfigurableElement, doRemoveConfigurableElement, split", "parameter/DomainConfiguration.cpp: addConfigurableElement, removeConfigurableElement, split", "parameter/AreaConfiguration.cpp"]}
{"id": "C19", "title": "All settings are valid between tuning operations", "statement": "In tuning mode, after every completed operation on a domain whose configurations were valid, every settings area of every configuration is valid (so a later restore never reads an uninitialised area).", "quantifier": "every history of domain operations", "why_tests_cant": "Unbounded histories.", "anchors": ["parameter/ConfigurableDomain.cpp: createConfiguration, autoValidateConfiguration, autoValidateAreas", "parameter/AreaConfiguration.cpp: validate, validateAgainst, copyFromOuter"]}
{"id": "C20", "title": "Domain and configuration names stay unique", "statement": "No two domains have the same name and no two configurations of a domain have the same name.", "quantifier": "every history of createDomain, deleteDomain, renameDomain, createConfiguration, deleteConfiguration, renameConfiguration, single domain import", "why_tests_cant": "Unbounded histories.", "anchors": ["parameter/ConfigurableDomains.cpp: createDomain, addDomain, deleteDomain, renameDomain", "parameter/ConfigurableDomain.cpp: createConfiguration, renameConfiguration", "parameter/Element.cpp: rename"]}
{"id": "C21", "title": "Save then restore gives the saved settings back", "statement": "After saveConfiguration, any change of the main blackboard followed by restoreConfiguration of the same configuration gives every element of the domain the bytes it had at the save and leaves the other bytes alone.", "quantifier": "every domain, every blackboard at the save and at the restore", "why_tests_cant": "All byte contents and layouts.", "anchors": ["parameter/AreaConfiguration.cpp: save, restore", "parameter/DomainConfiguration.cpp: save, restore", "parameter/BitwiseAreaConfiguration.cpp: copyTo, copyFrom"]}
{"id": "C22", "title": "Splitting an element preserves every configuration", "statement": "After a successful split of an element in a domain, restoring any configuration produces the same main blackboard as before the split.", "quantifier": "every domain, element with any number of children, configuration and blackboard", "why_tests_cant": "Unbounded numbers of children and configurations.", "anchors": ["parameter/ConfigurableDomain.cpp: split", "parameter/DomainConfiguration.cpp: split", "parameter/AreaConfiguration.cpp: copyFromOuter"]}
{"id": "C23", "title": "Associating an enclosing element preserves the settings of its parts", "statement": "When an element is added to a domain that already contains some of its descendants, these descendants are absorbed and, for every configuration, the settings of the descendants are kept.", "quantifier": "every domain, every set of associated descendants, every configuration", "why_tests_cant": "Unbounded.", "anchors": ["parameter/ConfigurableDomain.cpp: mergeAlreadyAssociatedDescendantConfigurableElements, mergeConfigurations, doAddConfigurableElement", "parameter/DomainConfiguration.cpp: merge", "parameter/AreaConfiguration.cpp: copyToOuter"]}
{"id": "C24", "title": "No part of the structure is twice in a domain", "statement": "In a domain no associated element is equal to, or a descendant of, another associated element of the same domain.", "quantifier": "every history of add, remove and split on a domain", "why_tests_cant": "Unbounded histories over unbounded trees.", "anchors": ["parameter/ConfigurableDomain.cpp: addConfigurableElement, doAddConfigurableElement, split", "parameter/ConfigurableElement.cpp: belongsTo, containsConfigurableDomain"]}
{"id": "C25", "title": "Element sequence", "statement": "A successful setElementSequence puts the listed elements first in the given order and keeps the others in their previous relative order; a refused one leaves the order unchanged; no settings are ever lost or duplicated.", "quantifier": "every configuration, every list of paths", "why_tests_cant": "All permutations and all faulty lists.", "anchors": ["parameter/DomainConfiguration.cpp: setElementSequence, getElementSequence"]}
{"id": "C26", "title": "Refused domain operations change nothing", "statement": "When an operation on domains, configurations or element associations reports a failure, names, configurations, associations, settings, rules and last applied records are unchanged.", "quantifier": "every state and every operation", "why_tests_cant": "All states and arguments.", "anchors": ["parameter/ConfigurableDomains.cpp", "parameter/ConfigurableDomain.cpp"]}
{"id": "C27", "title": "A new configuration is immediately usable", "statement": "A configuration made by createConfiguration holds for every element either the settings of the first configuration of the domain or, if it is the first one, those of the main blackboard.", "quantifier": "every domain and blackboard", "why_tests_cant": "All contents.", "anchors": ["parameter/ConfigurableDomain.cpp: createConfiguration, autoValidateConfiguration"]}
{"id": "C28", "title": "Editing a configuration touches only that configuration", "statement": "setConfigurationParameter changes only the addressed parameter in the addressed configuration, and the main blackboard only when that configuration is the last applied one; getConfigurationParameter then returns the value set.", "quantifier": "every structure, domain, configuration, parameter path and value", "why_tests_cant": "All addresses.", "anchors": ["parameter/ParameterMgr.cpp: accessConfigurationValue", "parameter/ConfigurableDomain.cpp: findConfigurationBlackboard", "parameter/BaseParameter.cpp: accessValue", "parameter/ArrayParameter.cpp: accessValue"]}
{"id": "C29", "title": "Memory layout is a partition", "statement": "Every element's bytes lie inside its parent's, the bytes of siblings do not overlap and tile the parent's, and the main blackboard is exactly as large as the whole structure.", "quantifier": "every structure tree", "why_tests_cant": "Unbounded trees.", "anchors": ["parameter/ConfigurableElement.cpp: setOffset, getFootPrint, getOffset", "parameter/BitParameterBlock.cpp: getFootPrint", "parameter/ParameterMgr.cpp: loadStructure"]}
{"id": "C30", "title": "Setting one parameter never changes another", "statement": "Setting a parameter through a handle or by path leaves the value read from every other parameter unchanged, including bit parameters that share a block.", "quantifier": "every structure, every two distinct parameters, every value", "why_tests_cant": "All pairs in all structures.", "anchors": ["parameter/Parameter.cpp: doSet", "parameter/BitParameter.cpp: doSet", "parameter/BitParameterType.cpp: merge, toBlackboard"]}
{"id": "C31", "title": "Paths identify elements", "statement": "Looking up the path an element reports gives that element back, provided brothers have distinct names; looking up any other text never gives a wrong element or crashes.", "quantifier": "every structure, every element, every path text", "why_tests_cant": "All trees and strings.", "anchors": ["parameter/Element.cpp: getPath, findDescendant, findChild", "parameter/PathNavigator.cpp", "parameter/ElementLocator.cpp: locate", "parameter/ParameterMgr.cpp: getConfigurableElement"]}
{"id": "C32", "title": "Raw bytes access round-trips", "statement": "setAsBytes with the right number of bytes followed by getAsBytes returns them and changes only the bytes of the element; a wrong number of bytes is refused without any change.", "quantifier": "every element, every byte string", "why_tests_cant": "All sizes and contents.", "anchors": ["parameter/ConfigurableElement.cpp: getSettingsAsBytes, setSettingsAsBytes", "parameter/ParameterBlackboard.cpp: readBytes, writeBytes"]}
{"id": "C33", "title": "Integer parameters: accept iff in range, read back what was set", "statement": "Setting an integer parameter by text succeeds iff the text is an integer within [min,max] and the value read back, in decimal or hexadecimal, signed or unsigned, is the value set; a refused value leaves the blackboard unchanged.", "quantifier": "every integer type (8, 16, 32 bits, signed or not, any min<=max), every text", "why_tests_cant": "All types, ranges and texts.", "anchors": ["parameter/IntegerParameterType.h: toBlackboard, fromBlackboard, checkValueAgainstRange", "utility/convert.hpp: convertTo"]}
{"id": "C34", "title": "Integer parameters: typed access is faithful", "statement": "setAsInteger / setAsSignedInteger on an integer parameter succeed exactly for values in the parameter's range and getAsInteger / getAsSignedInteger read the same number back.", "quantifier": "every integer type and every 32-bit user value", "why_tests_cant": "2^32 values times all ranges.", "anchors": ["parameter/IntegerParameterType.h: doToBlackboard, doFromBlackboard"]}
{"id": "C35", "title": "Enum parameters accept only declared values", "statement": "An enum parameter set by literal or by number accepts exactly the declared values; reading back gives a literal of that value (real space) or the value (raw space); a refused value writes nothing.", "quantifier": "every enum type (8, 16, 32 bits), every literal or number", "why_tests_cant": "All tables and texts.", "anchors": ["parameter/EnumParameterType.cpp: toBlackboard, fromBlackboard, checkValueAgainstSpace"]}
{"id": "C36", "title": "Boolean parameters", "statement": "A boolean parameter accepts exactly the documented texts and reads back the value that was set.", "quantifier": "every text and every raw/hex setting", "why_tests_cant": "All strings.", "anchors": ["parameter/BooleanParameterType.cpp", "utility/convert.hpp: convertTo<bool>"]}
{"id": "C37", "title": "Bit parameters", "statement": "A bit parameter of s bits at position p accepts exactly the values 0..max, reads back the value set, and setting it leaves every bit of the block outside [p, p+s) unchanged.", "quantifier": "every block size, position, size, maximum, block content and value", "why_tests_cant": "2^64 block contents.", "anchors": ["parameter/BitParameterType.cpp: toBlackboard, fromBlackboard, merge, getMask, getMaxEncodableValue, fromXml"]}
{"id": "C38", "title": "Fixed-point parameters", "statement": "A fixed-point parameter Qn.m accepts exactly the real values of [-2^n, 2^n - 2^-m] and reads back the nearest representable value, at most half a quantum from the value set; every representable value reads back unchanged.", "quantifier": "every n, m and storage size accepted by the loader, every real value", "why_tests_cant": "Infinite value domain.", "anchors": ["parameter/FixedPointParameterType.cpp: toBlackboard, fromBlackboard, doubleToBinaryQnm, binaryQnmToDouble, getRange, isEncodable"]}
{"id": "C39", "title": "String parameters", "statement": "A string parameter accepts exactly the strings that fit its maximum length and reads back what was set (up to the first NUL character); a refused string writes nothing and no access goes beyond the parameter's bytes.", "quantifier": "every maximum length and every string", "why_tests_cant": "All strings.", "anchors": ["parameter/StringParameter.cpp: doSet, doGet", "parameter/ParameterBlackboard.cpp: writeString, readString"]}
{"id": "C40", "title": "Array parameters", "statement": "Setting a whole array by text and getting it back returns the same elements; setting one element by index changes only this element; an index out of range, too many values or an invalid value is refused without change.", "quantifier": "every array length, element type, index text and value text", "why_tests_cant": "All lengths and contents.", "anchors": ["parameter/ArrayParameter.cpp: accessValue, setValues, getValues, getIndex, doSet, doGet"]}
{"id": "C41", "title": "Tokenising", "statement": "Splitting a text on delimiters yields, in order, the maximal delimiter-free pieces (the non-empty ones when delimiters are merged); joining delimiter-free pieces with a delimiter and splitting gives the pieces back.", "quantifier": "every text and delimiter set", "why_tests_cant": "All strings.", "anchors": ["utility/Tokenizer.cpp: split"]}
{"id": "C42", "title": "Mapping data", "statement": "A mapping text \"key1:value1,key2:value2\" binds exactly these keys; a repeated key is refused; looking a key up returns its first-bound value and nothing else.", "quantifier": "every mapping text", "why_tests_cant": "All strings.", "anchors": ["parameter/MappingData.cpp: init, getValue, addValue, asString"]}
{"id": "C43", "title": "Mapping context inheritance", "statement": "While mapping, a context item set on an element is visible to exactly its descendants, an item cannot be set twice along a branch, and asking for an item by key returns the value it was given.", "quantifier": "every structure and mapping annotation", "why_tests_cant": "Unbounded trees.", "anchors": ["parameter/MappingContext.cpp: setItem, getItem, iSet", "parameter/Subsystem.cpp: mapBegin, mapEnd, handleMappingContext"]}
{"id": "C44", "title": "Mapping value amendment", "statement": "Formatting a mapping value replaces every %n whose item is set by that item's value, in order, up to the first %n that cannot be replaced, and terminates.", "quantifier": "every mapping value and context", "why_tests_cant": "All strings.", "anchors": ["parameter/FormattedSubsystemObject.cpp: formatMappingValue"]}
{"id": "C45", "title": "Remote protocol: messages round-trip", "statement": "A command request or an answer sent by one side is received by the other with the same command, arguments, status and text.", "quantifier": "every command, argument list and answer", "why_tests_cant": "All byte strings.", "anchors": ["remote-processor/Message.cpp: serialize, writeString, readString", "remote-processor/RequestMessage.cpp", "remote-processor/AnswerMessage.cpp"]}
{"id": "C46", "title": "Remote protocol: corruption is detected and reception is safe", "statement": "A received frame whose payload or identifier differs from the sent one in exactly one byte is refused; a wrong sync word is refused; and receiving any byte stream never reads outside the received frame.", "quantifier": "every byte stream", "why_tests_cant": "All streams.", "anchors": ["remote-processor/Message.cpp: serialize, computeChecksum, readData, readString"]}
{"id": "C47", "title": "Remote commands dispatch", "statement": "A command is executed only if it is registered and has at least its minimum number of arguments; otherwise the state is unchanged and a failure is answered; the reply is \"Done\" or the command's own result on success.  Each of the manager's commands does the operation it is named for, answers what it reads, imports the document of its argument or file, or writes the document to the file, and changes nothing else.", "quantifier": "every command name, argument list, manager state, content of the files, and every reader and printer of XML texts", "why_tests_cant": "All strings, states and documents.", "anchors": ["remote-processor/RemoteCommandHandlerTemplate.h: remoteCommandProcess, parse, addCommandParser", "parameter/ParameterMgr.cpp: gastRemoteCommandParserItems and the *CommandProcess methods"]}
{"id": "C48", "title": "Tuning operations need tuning mode", "statement": "While tuning mode is off, every operation that would change domains, configurations, rules, configuration settings or tuned parameters is refused and changes nothing.", "quantifier": "every manager state and every such operation", "why_tests_cant": "All states and operations.", "anchors": ["parameter/ParameterMgr.cpp: checkTuningModeOn and its callers"]}
{"id": "C49", "title": "Parameter handles and tuning mode / domain ownership", "statement": "A parameter handle only changes the blackboard when tuning mode is off and the parameter is in no domain; in tuning mode a valid set succeeds without effect; a set on a parameter owned by a domain is refused.", "quantifier": "every structure, association state and set request", "why_tests_cant": "All states.", "anchors": ["parameter/ElementHandle.cpp: setAs, checkSetValidity", "parameter/ConfigurableElement.cpp: isRogue"]}
{"id": "C50", "title": "Rogue elements", "statement": "An element is reported rogue iff neither it, nor any ancestor, nor any descendant is associated with a domain; the rogue listing from the root covers exactly the parameters that are in no domain, without overlap.", "quantifier": "every structure and every association", "why_tests_cant": "Unbounded trees.", "anchors": ["parameter/ConfigurableElement.cpp: isRogue, listRogueElements", "parameter/ConfigurableElementAggregator.cpp: doAggregate"]}
{"id": "C51", "title": "Auto-sync control", "statement": "With auto-sync off, parameter sets and restores call no syncer; turning it on synchronises the whole system first and fails without turning on if that fails; manual sync is refused while auto-sync is on.", "quantifier": "every history of operations", "why_tests_cant": "Unbounded histories.", "anchors": ["parameter/ParameterMgr.cpp: setAutoSync, sync, accessParameterValue", "parameter/InstanceConfigurableElement.cpp: sync"]}
{"id": "C52", "title": "Syncer coverage", "statement": "The syncers collected for an element include the syncer responsible for every parameter below it that has one.", "quantifier": "every structure and placement of syncers", "why_tests_cant": "Unbounded trees.", "anchors": ["parameter/ConfigurableElement.cpp: fillSyncerSet, fillSyncerSetFromDescendant, getSyncer", "parameter/InstanceConfigurableElement.cpp: getSyncer, fillSyncerSetFromDescendant"]}
{"id": "C53", "title": "Domain export then import restores the settings", "statement": "Exporting the settings of an element to XML and importing the XML into any blackboard gives the element the exported settings.", "quantifier": "every structure of parameters and every in-range content", "why_tests_cant": "All contents.", "anchors": ["parameter/ConfigurableElement.cpp: serializeXmlSettings", "parameter/BaseParameter.cpp: serializeXmlSettings", "parameter/BitParameter.cpp: serializeXmlSettings"]}
{"id": "C54", "title": "Handle operations are atomic", "statement": "Concurrent handle and application operations on the blackboard behave as if executed one after the other in some order.", "quantifier": "every schedule of any number of threads", "why_tests_cant": "Unbounded schedules.", "anchors": ["parameter/ElementHandle.cpp: setAs, getAs", "parameter/ParameterMgr.cpp: applyConfigurations, accessValue, getBlackboardMutex"]}
{"id": "C55", "title": "Typed access through a handle obeys the declaration", "statement": "On a parameter that is in no domain, outside tuning mode, a typed set (Boolean, unsigned, signed, floating point, or text for strings; a list for arrays) is accepted exactly when the value is one that the parameter's declaration allows, and a typed get then returns it (the nearest representable value for fixed point). A refused value, and a value of a type the parameter does not have, leave the memory as it was. No other parameter changes.", "quantifier": "every structure, history, parameter and value", "why_tests_cant": "All values of all declarations.", "anchors": ["parameter/ElementHandle.cpp: setAs, getAs", "parameter/Parameter.cpp: access", "parameter/ArrayParameter.cpp: setValues, getValues", "parameter/BitParameter.cpp: access", "parameter/StringParameter.cpp"]}
{"id": "C56", "title": "Loading a structure document ends", "statement": "If no component type of a subsystem's library contains, at any depth, a component of that same type, then loading the structure of the subsystem ends, with success or with an error; a component type that does contain itself can never be used.", "quantifier": "every structure document of a subsystem, with any number and nesting of component types, blocks and libraries", "why_tests_cant": "Tests load a few documents; the recursion depth is decided by the document.", "anchors": ["parameter/Subsystem.cpp:structureFromXml", "parameter/ComponentInstance.cpp:fromXml,populate", "parameter/ComponentType.cpp:fromXml,populate", "parameter/ComponentLibrary.cpp:fromXml", "parameter/TypeElement.cpp:populate"]}
{"id": "C57", "title": "What is loaded is what the structure document declares", "statement": "The elements of a loaded subsystem are those of its instance definition in order, each with the type, size, range and length that its attributes give; a component holds the elements of its type and then those of the types it extends; an array of blocks or components holds as many elements with the same content; each has the mapping data of its declaration, and a component then that of its types. The declarations leave no choice.", "quantifier": "every structure document of a subsystem with a component library and an instance definition", "why_tests_cant": "Documents are unbounded trees with inheritance, nesting and arrays; a test checks the few it contains.", "anchors": ["parameter/TypeElement.cpp:fromXml,populate", "parameter/ComponentType.cpp:populate", "parameter/ComponentInstance.cpp:populate", "parameter/ParameterBlockType.cpp:populate", "parameter/IntegerParameterType.h:fromXml", "parameter/EnumParameterType.cpp:fromXml", "parameter/FixedPointParameterType.cpp:fromXml", "parameter/BitParameterType.cpp:fromXml", "parameter/StringParameterType.cpp:fromXml", "parameter/Subsystem.cpp:structureFromXml"]}
{"id": "C58", "title": "A loaded system is well formed", "statement": "In a system loaded from a document whose sizes are as the schema asks, parameters take one, two or four bytes, bit parameters lie inside their block, integer ranges are inside what the size can hold and fixed point formats fit their size; and if the bit parameters declared in each block do not overlap, those of the system do not.", "quantifier": "every structure document and every set of subsystem plugins with at most 32 context keys", "why_tests_cant": "The conditions that the rest of the library relies on must hold for every document; tests use a few.", "anchors": ["parameter/ParameterMgr.cpp:loadStructure", "parameter/SystemClass.cpp:loadSubsystems", "parameter/Subsystem.cpp:structureFromXml", "parameter/BitParameterType.cpp:fromXml", "parameter/FixedPointParameterType.cpp:fromXml", "parameter/EnumParameterType.cpp:fromXml", "schemas/Parameter.xsd"]}
{"id": "C59", "title": "Each element of a loaded system has its own path", "statement": "If declared names are usable in paths and no component declares a name that its type or a type that this one extends declares too, then no two brothers of the loaded system have the same name.", "quantifier": "every structure document and every set of subsystem plugins with at most 32 context keys", "why_tests_cant": "Names come together by inheritance and by arrays; every combination is possible.", "anchors": ["parameter/ComponentType.cpp:populate", "parameter/ComponentInstance.cpp:populate", "parameter/Element.cpp:getPathName,findChild", "schemas/ComponentLibrary.xsd"]}
{"id": "C60", "title": "Syncers of a loaded system", "statement": "In a loaded system no element that is synchronised by itself is below another such element, no two elements share a syncer, and the root has none.", "quantifier": "every structure document that loads and every set of subsystem plugins with at most 32 context keys", "why_tests_cant": "The syncers are made by the mapping of any tree with any mapping data.", "anchors": ["parameter/Subsystem.cpp:mapSubsystemElements", "parameter/VirtualSubsystem.cpp", "parameter/SystemClass.cpp", "parameter/InstanceConfigurableElement.cpp:setSyncer"]}
{"id": "C61", "title": "Value space and output format govern text access to parameters", "statement": "The value space and output format that the client selects, and nothing else, decide how parameter texts are written and read: in real space an integer, enumeration, fixed point or Boolean parameter is read as its decimal number, literal, fraction or 0/1, in raw space as the number its bits form, in decimal or in hexadecimal with all digits according to the output format; a text is accepted exactly when it stands, in the selected space, for an allowed value, and then stores that value. Texts inside configurations are always those of the real space and decimal.", "quantifier": "every history of client operations, every loaded parameter and every text", "why_tests_cant": "The mode is a setting made at any earlier time that acts on each later access; tests fix a mode and a few values.", "anchors": ["parameter/ParameterMgr.cpp:setValueSpace,setOutputRawFormat,accessParameterValue,getSettingsAsText", "parameter/ParameterAccessContext.cpp", "parameter/IntegerParameterType.cpp:toBlackboard,fromBlackboard", "parameter/EnumParameterType.cpp", "parameter/FixedPointParameterType.cpp", "parameter/BooleanParameterType.cpp"]}
{"id": "C62", "title": "Accepted domain documents give the domains they declare", "statement": "An accepted import of a document of all domains leaves exactly the domains the document declares, in its order, with the declared names, sequence awareness, configurations, rules, elements and settings; settings it does not give are taken from the parameters. An accepted import of one domain puts the declared domain behind the others, in place of the domain of the same name if overwriting was asked for. A rule element is accepted exactly if it declares a rule on known criteria with known match words and known values.", "quantifier": "every document, structure, history of operations before the import, with and without settings, with and without overwriting", "why_tests_cant": "A test imports a few documents; the claim is about every tree of elements and every state of the domains that the import replaces.", "anchors": ["parameter/ConfigurableDomains.cpp: fromXml, addImportedDomainFromXml", "parameter/ConfigurableDomain.cpp: fromXml, parseDomainConfigurations, parseConfigurableElements, parseSettings", "parameter/DomainConfiguration.cpp: fromXml, parseSettings", "parameter/CompoundRule.cpp: fromXml, childrenToXml", "parameter/SelectionCriterionRule.cpp: fromXml, toXml", "parameter/ParameterMgr.cpp: importDomainsXml, importSingleDomainXml"]}
{"id": "C63", "title": "Exported domains are read back", "statement": "The export of the domains of any state is accepted by the import of a system with the same structure and criteria, in any state of its own, and gives the same domains in the same order: names, sequence awareness, elements in order, configurations in order, rules and, if the settings are exported, the same value of every parameter in every configuration. The same holds of the export and import of one domain.", "quantifier": "every structure, pair of histories, choice of settings and set of domains", "why_tests_cant": "Any combination of rules, element kinds, configurations and previously loaded domains may be in the document; tests only try chosen files.", "anchors": ["parameter/ConfigurableDomain.cpp: toXml, composeDomainConfigurations, composeConfigurableElements, composeSettings", "parameter/ConfigurableDomains.cpp: toXml", "parameter/ParameterMgr.cpp: exportDomainsXml, exportSingleDomainXml", "parameter/ConfigurableDomains.cpp: fromXml, addImportedDomainFromXml", "parameter/ConfigurableDomain.cpp: fromXml, parseDomainConfigurations, parseConfigurableElements, parseSettings", "parameter/DomainConfiguration.cpp: fromXml, parseSettings", "parameter/CompoundRule.cpp: fromXml, childrenToXml", "parameter/SelectionCriterionRule.cpp: fromXml, toXml", "parameter/ParameterMgr.cpp: importDomainsXml, importSingleDomainXml"]}
{"id": "C64", "title": "Imports of domains are contained", "statement": "No import of domains changes a parameter, the hardware or a criterion. A refused import of one domain changes nothing; a refused import of all domains leaves no domain at all. An import without overwriting never replaces a domain. A document in which every domain has the expected parts never makes the program stop. After an accepted import of all domains the settings of every configuration are valid.", "quantifier": "every document, state reached by any history, and import option", "why_tests_cant": "Refusals can happen at any element of a document of any size; tests cannot try every point of failure.", "anchors": ["parameter/ConfigurableDomains.cpp: fromXml, addImportedDomainFromXml", "parameter/ConfigurableDomain.cpp: fromXml, parseDomainConfigurations, parseConfigurableElements, parseSettings", "parameter/DomainConfiguration.cpp: fromXml, parseSettings", "parameter/CompoundRule.cpp: fromXml, childrenToXml", "parameter/SelectionCriterionRule.cpp: fromXml, toXml", "parameter/ParameterMgr.cpp: importDomainsXml, importSingleDomainXml"]}
{"id": "C65", "title": "A criterion has the state last set for it", "statement": "Whatever operations are done on the manager, accepted or refused, every criterion has the state last set for it (or its initial one), and keeps its name and values. It counts as modified exactly if its state was changed since the last application of the configurations, whatever else was done since.", "quantifier": "every sequence of operations of the manager and its handles, every criterion", "why_tests_cant": "The operations can be interleaved in any order and number; a test only tries some sequences.", "anchors": ["parameter/SelectionCriterion.cpp: setCriterionState, hasBeenModified, resetModifiedStatus", "parameter/ParameterMgr.cpp: doApplyConfigurations, setTuningMode, applyConfigurations"]}
{"id": "C66", "title": "A start applies the settings and gives the rest its default or hardware value", "statement": "If the structure is accepted, a start fails only if the settings are missing or refused and the client asked for failure in this case. After a start the domains are those of the settings document; each domain for which the criteria select a configuration has applied it and its parameters have the settings of that configuration. Every parameter that no selected configuration sets has its default value (lower bound, first enumeration value, zero, empty text) when back synchronisation is simulated; otherwise it has what the hardware behind its syncer gives, the default value if the hardware gives nothing, and zero if it has no syncer. A start is equivalent to a history of domain operations.", "quantifier": "every structure, settings document, state of the criteria, choice of back synchronisation and answers of the hardware", "why_tests_cant": "The values depend on which elements of an arbitrary tree are covered by the selected configurations of an arbitrary document, and on what the hardware answers.", "anchors": ["parameter/ParameterMgr.cpp: load, loadSettings, loadSettingsFromConfigFile", "parameter/BackSynchronizer.h: CBackSynchronizer", "parameter/HardwareBackSynchronizer.cpp: CHardwareBackSynchronizer, sync", "parameter/SimulatedBackSynchronizer.cpp: sync", "parameter/SubsystemObject.cpp: sync, accessHW, receiveFromHW", "parameter/VirtualSyncer.cpp: sync", "parameter/ConfigurableElement.cpp: setDefaultValues, hasNoValidDomainAssociated"]}
{"id": "C67", "title": "Subsystems that ask are resynchronised at the next application", "statement": "When a subsystem asks for a resynchronisation, the next application of configurations (applyConfigurations outside of tuning mode, or leaving tuning mode) calls every syncer of that subsystem once, with the values the main blackboard then has, whether or not any domain has a configuration to switch to; the calls come after the settings of the sequence-unaware domains are written and before the sequence-aware ones. Requests made before are kept over any other operation, including applications that are refused or that do nothing because of tuning mode; an application answers all of them and leaves none waiting. A request alone sends nothing and changes no value. A start leaves no request waiting.", "quantifier": "Every structure, every state of the manager that any history of operations gives, every history of operations with requests of any subsystems at any points, every hardware.", "why_tests_cant": "A unit test makes one request and one application; it cannot settle which requests wait after an arbitrary history, nor that no other syncer is called.", "anchors": ["parameter/SystemClass.cpp CSystemClass::checkForSubsystemsToResync, cleanSubsystemsNeedToResync", "parameter/Subsystem.h CSubsystem::needResync", "parameter/ParameterMgr.cpp CParameterMgr::doApplyConfigurations", "parameter/ConfigurableDomains.cpp CConfigurableDomains::apply"]}
{"id": "C68", "title": "Values never depend on what the hardware answers or on when it is synchronised", "statement": "Two instances with the same structure and the same values, that receive the same operations up to requests for a resynchronisation, explicit synchronisations and changes of the automatic synchronisation, have the same values afterwards: the same main blackboard, the same domains, configurations, settings, rules and last applied configurations, the same criteria and modes, and every parameter and every setting reads the same, even if the hardware of one answers with errors where the other does not.", "quantifier": "Every pair of hardware behaviours, every state, every pair of histories of operations that agree up to the operations about the hardware; the histories do not stop the program.", "why_tests_cant": "Tests use one hardware behaviour; an error on any one of unboundedly many synchronisations, or a mode switched at any point, would have to be tried.", "anchors": ["parameter/ParameterBlackboard.cpp", "parameter/ConfigurableDomain.cpp CConfigurableDomain::apply, restoreConfiguration", "parameter/AreaConfiguration.cpp CAreaConfiguration::restore", "parameter/ParameterMgr.cpp CParameterMgr::setAutoSync, sync"]}
{"id": "C69", "title": "Floating-point parameters accept exactly the finite values of their range and store the nearest single-precision number", "statement": "A floating-point parameter takes a raw text exactly when the text is a 32-bit number that is the bit pattern of a finite number between Min and Max; a real text exactly when it is not hexadecimal and is read as a number between Min and Max; a double exactly when it does not exceed the largest single-precision number and the single-precision number nearest to it (ties to even) is between Min and Max. The memory then holds that number, the double read back is exactly it, no other byte changes, and a refused set changes nothing. Infinities and NaNs are refused. A number that is read can be set again and leaves the memory as it is. The text read is the number rounded to six significant digits in real space, the bit pattern in raw space.", "quantifier": "every declared range, memory, text, double, value space and format", "why_tests_cant": "There are 2^32 bit patterns, 2^64 doubles and unboundedly many texts and ranges; rounding errors show for few of them.", "anchors": ["parameter/FloatingPointParameterType.cpp: CFloatingPointParameterType::toBlackboard, fromBlackboard, checkValueAgainstRange", "parameter/Parameter.cpp: CParameter::doSet, doGet", "utility/convert.hpp: convertTo"]}
{"id": "C70", "title": "The text of a floating-point parameter can be set again", "statement": "The text that a floating-point parameter shows can be set in the same value space and leaves the parameter as it was.", "quantifier": "every declared range, number of the range, value space and format", "why_tests_cant": "Holds for most of the 2^32 numbers and fails for a few of them that depend on the declared range.", "anchors": ["parameter/FloatingPointParameterType.cpp: CFloatingPointParameterType::toBlackboard, fromBlackboard"]}
{"id": "C71", "title": "Structure documents that keep the rules are loaded", "statement": "A structure document of a subsystem whose attributes are readable, whose references are to component types declared before, and whose elements have the child elements that belong to them is loaded, not refused. If it declares some elements then the subsystem has exactly those; and it declares some whenever no component type contains, at any depth, a component of its own type.", "quantifier": "every structure document that keeps these rules: any number of types, sets of types, extensions, arrays, nesting depths and attribute values", "why_tests_cant": "A test loads particular documents. That no document that keeps the rules is refused is about all of them: a boundary that is off by one, a tag missing from a table or a default that is rejected shows up only in the documents that use it.", "anchors": ["parameter/Subsystem.cpp: structureFromXml", "parameter/ComponentLibrary.cpp", "parameter/ComponentType.cpp: fromXml, populate", "parameter/ComponentInstance.cpp: fromXml", "parameter/TypeElement.cpp: fromXml", "parameter/IntegerParameterType.cpp: fromXml", "parameter/FixedPointParameterType.cpp: fromXml", "parameter/FloatingPointParameterType.cpp: fromXml", "parameter/EnumParameterType.cpp: fromXml", "parameter/BitParameterType.cpp: fromXml"]}
{"id": "C72", "title": "Listings of the structure are exact", "statement": "`listElements` gives the element that a path designates (a path of slashes only is the root) and its children. `listParameters` gives every parameter at or below it, each one once and in the order of the structure, and besides them only elements that have no children. Each line is the path and the kind of the element, and the path leads back to the element. `getElementSize` is the number of bytes of the element. `dumpElement` has one line for every element at or below the one designated, indented by its depth, with the value that `getParameter` answers for each parameter. A path that designates nothing is an error.", "quantifier": "every structure, path and, for sizes and values, every state the manager can reach", "why_tests_cant": "A test compares the listing of one structure with a text. That nothing is missing, repeated or out of order for any depth, number of children and position of the starting element is not settled by examples.", "anchors": ["parameter/ParameterMgr.cpp: listElementsCommandProcess, listParametersCommandProcess, dumpElementCommandProcess, getElementSizeCommandProcess", "parameter/Element.cpp: listQualifiedPaths, dumpContent, getQualifiedPath", "parameter/ElementLocator.cpp: locate", "parameter/ConfigurableElement.cpp: logValue, getFootprintAsString", "parameter/BaseParameter.cpp: logValue"]}
{"id": "C73", "title": "Listings of the domains of elements are exact", "statement": "`listBelongingDomains` gives the domains that contain an element, each one once, starting with the domain that is associated the closest to it. `listAssociatedDomains` gives the domains the element itself is associated with. `listAssociatedElements` gives every element that is associated with some domain, once, with exactly its domains. `listConflictingElements` gives exactly the associated elements that two domains or more contain, each one once, with all the domains that contain it; whenever two domains contain an element, it or an element above it is listed.", "quantifier": "every state that a history of operations on domains can reach, every path, every order of the elements in memory", "why_tests_cant": "The associations are kept twice, in the elements and in the domains, and changed by a dozen operations (split, delete, import, failed import, ...). That both agree and that nothing is counted twice is about all histories.", "anchors": ["parameter/ConfigurableElement.cpp: listBelongingDomains, getBelongingDomains, listAssociatedDomains, getBelongingDomainCount, addAttachedConfigurableDomain, removeAttachedConfigurableDomain", "parameter/ConfigurableDomains.cpp: listAssociatedElements, listConflictingElements, gatherAllOwnedConfigurableElements", "parameter/ConfigurableDomain.cpp: gatherConfigurableElements"]}
{"id": "C74", "title": "The status tells what is applied and what is pending", "statement": "For every domain, in order, the status gives the last applied configuration (`<none>` if there is none) and in brackets the configuration that the next application would switch to: nothing if the applicable one is already applied, `<none>` if no configuration is applicable. After an application, the one that was pending is the last applied one and nothing is pending. `listDomains`, `listConfigurations` and `listDomainElements` give the domains, the configurations and the elements in order. The status and the dump of the domains are always answered.", "quantifier": "every state that a history of operations can reach", "why_tests_cant": "The last applied configuration is kept by reference and may be deleted, renamed or replaced by imports. That the status never shows a configuration that is gone and always predicts the next application is about all histories.", "anchors": ["parameter/ParameterMgr.cpp: statusCommandProcess, dumpDomainsCommandProcess, listDomainsCommandProcess, listConfigurationsCommandProcess", "parameter/ConfigurableDomains.cpp: listLastAppliedConfigurations, listDomains, listConfigurations, listDomainElements", "parameter/ConfigurableDomain.cpp: getLastAppliedConfigurationName, getPendingConfigurationName, listAssociatedElements, logValue"]}
{"id": "C75", "title": "C API: criteria are exactly those declared at the start", "statement": "A start through the C API accepts exactly the lists of criteria in which each has a name and values, no name comes twice, and the values of each are distinct and can be numbered (31 for an inclusive criterion, none of them called `none`). After a successful start exactly these criteria exist, with the values numbered by their place (a bit for an inclusive criterion, the index for an exclusive one) and the state 0. From then on reading a criterion gives the value last set for that name, whatever calls come in between; other names are refused without effect.", "quantifier": "all lists of criteria, all files, all histories of calls of the C API and of commands of other clients", "why_tests_cant": "the lists of criteria and the histories are unbounded", "anchors": ["bindings/c/ParameterFramework.cpp: createCriteria, pfwStart, pfwSetCriterion, pfwGetCriterion", "parameter/SelectionCriterionType.cpp: addValuePair"]}
{"id": "C76", "title": "C API: calls out of order are refused, not fatal", "statement": "Through the C API, in every order of calls: before a start every call is refused without effect; there is at most one start, any other is refused without effect; the last error is there exactly if the last call failed; what a started handler holds is a state of the manager reached by its operations; calls that do not set change no parameter; applying configurations succeeds and does what the manager does. No call stops the program.", "quantifier": "all histories of calls of the C API with valid handles, and of commands of other clients", "why_tests_cant": "the orders of calls are unbounded", "anchors": ["bindings/c/ParameterFramework.cpp: pfwStart, pfwSetCriterion, pfwApplyConfigurations, pfwBindParameter, Status", "parameter/ParameterMgrPlatformConnector.cpp: applyConfigurations, createParameterHandle"]}
{"id": "C77", "title": "C API: parameters read as they were set, and only outside of domains", "statement": "Binding a path through the C API succeeds exactly for the paths of parameters, and earlier handles stay valid. Setting an integer or a string through a handle of a parameter that is in no domain succeeds exactly for the values that the declaration allows, provided that the hardware accepts it; reading through the handle then gives that value; a refused set changes nothing. Setting a parameter that is in a domain is refused and changes nothing.", "quantifier": "all reachable handlers, all structures, paths, parameters and values", "why_tests_cant": "structures, histories and values are unbounded", "anchors": ["bindings/c/ParameterFramework.cpp: pfwBindParameter, pfwGetIntParameter, pfwSetIntParameter, pfwGetStringParameter, pfwSetStringParameter", "parameter/ElementHandle.cpp"]}
{"id": "C78", "title": "The exported structure of an element describes it", "statement": "getElementStructureXML of an element (and getSystemClassXML for the whole system) gives a document with one XML element per element of the structure, at the same place, with its name and with attributes that declare its kind and type: size, signedness, bounds, literals with their numbers, Q format, length of arrays, position of bits. Put as declarations in a structure document, the exports declare the same elements again.", "quantifier": "all structures that documents can declare, all elements of them, all type parameters, all readers of decimal numbers that round to nearest", "why_tests_cant": "Tests export a few elements and compare texts; that every type, bound and nesting comes back needs a proof over all structures and both directions, and finding the types for which it does not needs the general statement.", "anchors": ["parameter/ParameterMgr.cpp:CParameterMgr::getElementStructureXMLCommandProcess", "parameter/ParameterMgr.cpp:CParameterMgr::getSystemClassXMLCommandProcess", "parameter/ConfigurableElement.cpp:CConfigurableElement::toXml", "parameter/Element.cpp:CElement::toXml", "parameter/TypeElement.cpp:CTypeElement::toXml", "parameter/FloatingPointParameterType.cpp:toXml"]}
{"id": "C79", "title": "An integer parameter with an adaptation is set and read as the real number its slope and offset give", "statement": "When an integer parameter has a linear adaptation, setting it to a real number stores the integer part of the number times the slope, plus the offset, and refuses what is outside the range of the parameter without changing anything; a larger number never stores a smaller integer when the slope is positive; reading shows the integer less the offset divided by the slope, and setting what was read leaves the parameter as it was. A logarithmic adaptation never stores less than its floor value. Adaptations taken from structure documents have usable slopes and bases.", "quantifier": "every integer type, memory, slope, offset, double-precision number, and every library functions log and exp", "why_tests_cant": "The domain is that of all doubles, slopes and offsets with IEEE rounding at every step; tests only take a few round numbers.", "anchors": ["parameter/LinearParameterAdaptation.cpp: CLinearParameterAdaptation::fromUserValue, toUserValue, fromXml", "parameter/ParameterAdaptation.cpp: CParameterAdaptation::fromUserValue, toUserValue", "parameter/LogarithmicParameterAdaptation.cpp: fromUserValue, toUserValue, fromXml", "parameter/IntegerParameterType.h: toBlackboard(double), fromBlackboard(double)"]}
{"id": "C80", "title": "Every plugin that can be loaded is loaded, whatever the order in which plugins are named", "statement": "Loading the subsystem plugins named in the framework configuration always ends. Every plugin that can be opened, given others that can, is loaded, each once per mention, whatever the order of the document; the others are reported; the result is a success when none is left, or when missing subsystems are tolerated. A subsystem type is then built by the plugin that registered it, and a type without plugin is virtual when missing subsystems are tolerated or the type is Virtual, and refused otherwise.", "quantifier": "every dynamic linker with any dependencies between plugins, every list of locations, every initial state", "why_tests_cant": "Tests load one or two plugins in one order; the fixpoint must be reached for every dependency graph and every order.", "anchors": ["parameter/SystemClass.cpp: CSystemClass::loadSubsystems, loadSubsystemsFromSharedLibraries, loadPlugins", "parameter/PluginLocation.cpp: CPluginLocation::fromXml", "parameter/ElementLibrary.cpp: CElementLibrary::createElement, addElementBuilder", "parameter/DefaultElementLibrary.h: CDefaultElementLibrary::createElement"]}
{"id": "C81", "title": "A system described in several files is the system described in one", "statement": "A structure file that includes other files loads exactly as the single document in which each inclusion is replaced by the subsystem of the file it names, in the same order, names being relative to the structure file: same system, or same refusal. A file that is missing, that has another root, or that is not valid when validation is asked for, is never passed over: the structure is then not loaded.", "quantifier": "every set of files, every way to resolve names, every structure with any number of inclusions, every plugin table, with and without validation", "why_tests_cant": "Tests include one or two files; that inclusion is transparent must hold for every mix of inclusions and subsystems, and for the offsets and mappings they get.", "anchors": ["parameter/XmlFileIncluderElement.cpp: CXmlFileIncluderElement::fromXml", "parameter/ParameterMgr.cpp: CParameterMgr::loadStructure, xmlParse", "xmlserializer/XmlDocSource.cpp: CXmlDocSource::populate, mkUri"]}
{"id": "C82", "title": "The framework starts exactly when its files allow it", "statement": "From the path of the configuration file, `start` succeeds exactly when the configuration is understood, its plugins load (or their absence is accepted), the structure file it names describes a system, the settings it names are accepted (or their failure is), and the port can be opened when tuning is allowed and the client does not forbid remote access; what is started is then determined by the files. With validation every file a start is made from is valid. Without `TuningAllowed`, no port is opened and the tuning mode cannot be turned on by any later sequence of operations. A failure is an error that `start` returns.", "quantifier": "every set of files, linker, plugins, hardware, policies of the client and criteria; all later histories for the tuning mode", "why_tests_cant": "Tests start from one set of files; acceptance and its consequences must be settled for every configuration.", "anchors": ["parameter/ParameterMgr.cpp: CParameterMgr::load, loadFrameworkConfiguration, loadSubsystems, loadStructure, loadSettings, loadSettingsFromConfigFile, handleRemoteProcessingInterface", "parameter/ParameterFrameworkConfiguration.cpp: CParameterFrameworkConfiguration::fromXml", "parameter/FrameworkConfigurationLocation.cpp", "parameter/PluginLocation.cpp"]}
{"id": "C83", "title": "Commands and sessions are always answered", "statement": "In every state that operations can reach, a remote command is answered (success or failure with a text), whatever it is and whatever its arguments, and so is every request of a session. In particular every parameter can be read, every dump shown, every element and domain exported. No history of commands makes a string run into the memory behind it.", "quantifier": "every structure, reachable state, command, list of arguments and session of any length", "why_tests_cant": "A test runs some commands on some states; the claim is about every request in every state that any history can reach.", "anchors": ["remote-processor/RemoteProcessorServer.cpp: CRemoteProcessorServer::handleNewConnection", "remote-processor/RemoteCommandHandlerTemplate.h: TRemoteCommandHandlerTemplate::remoteCommandProcess", "parameter/ParameterMgr.cpp: the remote command parsers", "parameter/StringParameter.cpp: CStringParameter::doGet, doSet", "parameter/EnumParameterType.cpp: CEnumParameterType::fromBlackboard", "parameter/ParameterType.cpp: CParameterType::makeEncodable", "parameter/ParameterBlackboard.cpp: CParameterBlackboard::readString"]}
{"id": "C84", "title": "Backups made by commands restore what was saved", "statement": "When the domains are exported with their settings to a file by a command (or as a text by the command that answers it), then after any session of requests that does not write the same file, importing it in tuning mode succeeds, gives back the same domains in the same order with the same sequence awareness, elements, configurations, rules and settings, and does not touch the parameters. The same holds for one domain with overwrite, which takes the place of the one of its name, and for the settings of an element. A session that does not ask for a document in a file leaves the file as it is. Once a backup is restored, leaving the tuning mode gives every parameter the value it had in the saved settings of the configuration that is the first to qualify now.", "quantifier": "All structures, criteria, reachable managers and histories between the save and the restore, all files, all domains and elements, all states of the criteria at the restore.", "why_tests_cant": "Tests restore one backup after one history; this concerns any history between save and restore, which may delete, rename, split or overwrite everything the backup names.", "anchors": ["parameter/ParameterMgr.cpp: exportDomainsXml, importDomainsXml, exportSingleDomainXml, importSingleDomainXml, exportElementToXMLString, accessConfigurationValue", "parameter/ConfigurableDomains.cpp: toXml, addDomain", "parameter/ConfigurableDomain.cpp: fromXml, toXml", "remote-processor/RemoteProcessorServer.cpp: handleNewConnection"]}
{"id": "C85", "title": "Settings are the same after a restart", "statement": "When the domains of a running system are exported with their settings, and a system with the same structure and the same criteria is then started with that document as its settings file, it starts and has the same domains in the same order, with the same sequence awareness, elements, configurations, rules and settings; exporting them again gives the identical document. Each parameter of a domain has, after the start, the value that it had in the exported settings of the configuration that is the first to qualify with the states the criteria have at the start.", "quantifier": "All structures, histories before the export, criteria states at the start, hardware answers, back synchronisations and failure policies.", "why_tests_cant": "A test restarts one system from one file; the claim is about every history that led to the export and every state in which the next start happens.", "anchors": ["parameter/ParameterMgr.cpp: CParameterMgr::load, loadSettings, loadSettingsFromConfigFile, exportDomainsXml", "parameter/ConfigurableDomains.cpp: CConfigurableDomains::toXml, fromXml, apply", "parameter/ConfigurableDomain.cpp: CConfigurableDomain::toXml, fromXml"]}
{"id": "C86", "title": "The client program does what the command does", "statement": "Running the command line client with a command and arguments has the same effect on the running system as giving the command to its command handler directly, shows the same answer, and exits with 0 exactly when the command succeeded (the answer is then on the standard output, otherwise on the standard error). A script of such calls does what the commands do one after the other, up to one that stops the system, after which every call exits with 1.", "quantifier": "All commands, arguments, states of the system, and scripts of any length.", "why_tests_cant": "The claim composes trimming, framing, checksums, dispatch and answers for every text; tests look at a few commands.", "anchors": ["remote-process/main.cpp: main, sendAndDisplayCommand", "remote-processor/RequestMessage.cpp: CRequestMessage::addArgument, setCommand, trim", "remote-processor/RemoteProcessorServer.cpp: CRemoteProcessorServer::handleNewConnection", "parameter/CommandHandlerWrapper.cpp: CommandHandlerWrapper::process"]}
{"id": "C87", "title": "The documents that describe criteria and structures are faithful", "statement": "The XML document of the selection criteria lists every criterion once, in the order of creation, with its name, whether it is inclusive or exclusive, the text of its current state, and every value with its literal and its number; two systems with the same document have the same criteria with the same values. The document of a structure shows all elements in their order.", "quantifier": "All lists of criteria with any values and states; all structures.", "why_tests_cant": "Tests print the criteria of one platform; the claim is that nothing is lost or confused whatever the criteria.", "anchors": ["parameter/ParameterMgr.cpp: CParameterMgr::listCriteriaCommandProcess, getElementStructureXMLCommandProcess", "parameter/SelectionCriterion.cpp: CSelectionCriterion::toXml", "parameter/SelectionCriterionType.cpp: CSelectionCriterionType::toXml"]}
{"id": "C88", "title": "Exported domains are valid for the shipped schemas", "statement": "After any history, the document exported for all the domains, or for one of them, with or without settings, is valid for the schemas that are shipped for it (ConfigurableDomains.xsd with ConfigurableDomain.xsd and ParameterSettings.xsd): tags, attributes, patterns of values, keys and references. Conversely, no document that these schemas accept makes an import or a start stop the program.", "quantifier": "every structure, every history of operations, every set of domains, configurations, rules and values, every value space and radix; for the converse every document", "why_tests_cant": "Validity depends on the names, the rules and the values of all the parameters after an arbitrary history; tests validate a few documents.", "anchors": ["schemas/ConfigurableDomains.xsd", "schemas/ConfigurableDomain.xsd", "schemas/ParameterSettings.xsd", "parameter/ParameterMgr.cpp: exportDomainsXml, exportSingleDomainXml", "parameter/ConfigurableDomain.cpp: toXml", "parameter/DomainConfiguration.cpp: toXml", "parameter/CompoundRule.cpp: toXml", "parameter/SelectionCriterionRule.cpp: toXml", "parameter/ParameterType.cpp", "parameter/FloatingPointParameterType.cpp: fromBlackboard"]}
{"id": "C89", "title": "The domain generator writes what the commands made, and its status counts what went wrong", "statement": "Given criteria and commands, the generator program declares exactly these criteria, starts the framework, runs the commands in order, and writes the domains with their settings as they are after the last command. Its exit status is 0 exactly when no command was refused and no element is in two domains; the number of errors is capped at 255 and so is never cut to 0; without a document the status is 1. The criteria a script may declare are those with at least one value, no value twice, at most 31 values for an inclusive one. A framework that starts with the generated document has the generated domains.", "quantifier": "all lists of criteria, all lists of commands whose words have no NUL and no line end, all files and structures", "why_tests_cant": "the commands, their number, their failures and the structure are unbounded; the status is a count that is cut", "anchors": ["tools/xmlGenerator/domainGeneratorConnector.cpp: XmlGenerator::addCriteria, parse, conflictingElements, start, exportDomains, normalizeExitCode, main", "tools/xmlGenerator/domainGenerator.py: generateDomainCommands, main"]}
{"id": "C90", "title": "The platform connector keeps its policies and criteria as requested, and what it starts is what was asked", "statement": "A program that embeds the framework through the platform connector, and a client that drives it through the test platform, get what they ask: a refused request changes nothing (except `start`); before the start each of the three policies has the value of the last accepted request to set it, or its initial value, whatever the other requests are, and no policy changes after the start; a start that succeeds is a start of the files with these policies and the created criteria; a criterion created from a list of values or from a number of them has exactly these values; `setCriterionState` sets the state of the first criterion of that name, by number, by value or by lists of values, and nothing else; whatever the requests after the start, the system is in a state that the framework's operations reach. Creating a criterion after the start or applying before it stops the program.", "quantifier": "all histories of requests with all words, before and after the start; all files, folders of schemas and policies; all criteria and all states", "why_tests_cant": "The value of a policy depends on the whole history of accepted and refused requests, a state on all the words of a request, and the running system on everything that was requested before and after the start; tests only see some sequences.", "anchors": ["parameter/ParameterMgrPlatformConnector.cpp: CParameterMgrPlatformConnector", "test/test-platform/TestPlatform.cpp: CTestPlatform", "parameter/ParameterMgr.cpp: setFailureOnMissingSubsystem, setFailureOnFailedSettingsLoad, setValidateSchemasOnStart, createSelectionCriterion", "parameter/SelectionCriterion.cpp: setCriterionState", "remote-processor/RemoteCommandHandlerTemplate.h: TRemoteCommandHandlerTemplate"]}
{"id": "C91", "title": "A plugin object only touches its own element, and a failed reading leaves the default values", "statement": "The code of a plugin that goes over no more bytes than its element has, reads and changes only the memory of this element, wherever the element is in the system and whatever the other parameters hold. Sending by code that only reads leaves the blackboard as it is, and its answer depends on the memory of the element alone. Receiving either leaves what the code wrote, or, when it fails or the subsystem is not alive, the default values of all parameters of the element; nothing else changes in any case. The number that code gets for an integer parameter is the one the framework shows. The skeleton plugin sends every byte of its parameter once.", "quantifier": "all structures, elements, blackboards and all codes of plugins, that is all finite trees of reads, writes and decisions on what was read", "why_tests_cant": "The code of plugins is not known to the framework; the claim is about every such code and every blackboard around its element.", "anchors": ["parameter/SubsystemObject.cpp: CSubsystemObject::sync, accessHW, sendToHW, receiveFromHW, blackboardRead, blackboardWrite, toPlainInteger, setDefaultValues", "parameter/IntegerParameterType.h: toPlainInteger", "skeleton-subsystem/SkeletonSubsystemObject.cpp: CSkeletonSubsystemObject"]}
{"id": "C92", "title": "Descriptions of domains are translated to what they say", "statement": "The commands that are made of an accepted description of domains (a .pfw file) are what it says. The domains and configurations that are created are those of the description, with the names of their groups in front. The rule of a configuration is accepted by the framework and matches exactly when all the rules that apply to it do: its own, those of its groups and domains, and those of the configuration groups in scope with the same name. The values that are set are those of the lines below the configuration, with the names of components in front. All configurations of a domain set the same parameters, which are its elements. A sequence is given to the configurations of sequence aware domains, and only to these. Nothing is used before it is created, and each command is there once, in the order of the lines. A description that can be read, whose configurations set the same parameters within each domain and whose operators are ANY or ALL, is translated.", "quantifier": "all descriptions, of any size and any depth of groups, components and operators, and all criteria", "why_tests_cant": "Descriptions are trees of any depth, with rules that are inherited and composed by name; tests translate a few examples, and do not feed the text of rules to the parser of the framework.", "anchors": ["tools/xmlGenerator/EddParser.py: Parser.parse, ElementsFactory, PropagationContext, Element.propagate, Configuration, GroupConfiguration, Domain, Operator.PFWSyntax", "tools/xmlGenerator/PfwBaseTranslator.py: PfwBaseTranslator", "tools/xmlGenerator/PFWScriptGenerator.py: PfwScriptTranslator", "parameter/RuleParser.cpp: CRuleParser"]}
{"id": "C93", "title": "The language of application rules has one meaning, with any spacing", "statement": "A text of the language of application rules, that is three words for a criterion, or All or Any and such rules in braces with commas between them, with any number of spaces between, is accepted and read as the rule it says. A text has one meaning. Texts outside of the language are refused.", "quantifier": "all criteria, all rules of any depth and all spacings", "why_tests_cant": "The texts of rules are unboundedly many; a parser that drops words agrees with a right one on all well written tests.", "anchors": ["parameter/RuleParser.cpp: CRuleParser::parse, iterate, next", "parameter/SelectionCriterionRule.cpp: CSelectionCriterionRule::parse", "parameter/CompoundRule.cpp: CCompoundRule::parse"]}
{"id": "C94", "title": "Descriptions of domains are read as they are written", "statement": "A description is accepted exactly when its lines, but for blank lines and comments, are those of a tree of elements, each indented one more than the element it is under, and each under one that may hold it; this tree is what is read. Writing any such tree, with names and values that lines can say, and reading the lines gives the tree back. Blank lines and comments change nothing, wherever they are.", "quantifier": "all lists of lines, all trees of elements", "why_tests_cant": "The reader is driven by indentation, with elements that are closed by later lines; its states are as many as the histories of lines.", "anchors": ["tools/xmlGenerator/EddParser.py: Parser.parse, __getRank__, ElementsFactory.createElementFromLine, Element.extractOptions, Domain.extractOptions, childWhiteList"]}
{"id": "C95", "title": "A description becomes the domains that it describes", "statement": "When the framework accepts every command that is made of a domain description, its domains are those it had before, unchanged and in their order, followed by those of the description in its order: with the names, the sequence awareness and the configurations that are written, none of them applied, and with elements that cover exactly the parameters that are set. Each configuration qualifies, for any states of the criteria, exactly when all the rules that apply to it hold; restoring it leaves what is outside of its domain as it was, and sets each of its parameters to the text that the description gives. The values in memory and the criteria are not changed. In particular, if the domain generator, given such a description, ends with the status 0, what it writes is the export of such a state.", "quantifier": "every description that is accepted, every structure, every state of the framework that operations reach, every states of the criteria and every content of the memory when a configuration is restored", "why_tests_cant": "a test generates the domains of one description for one structure; the claim composes the parsing of any description with the parsing of any rule and the storing of any value, at any nesting of groups and components", "anchors": ["tools/xmlGenerator/EddParser.py: Parser.parse, DomainElement.propagate, translate", "tools/xmlGenerator/PFWScriptGenerator.py: PfwScriptTranslator", "tools/xmlGenerator/domainGeneratorConnector.cpp: XmlGenerator::parse", "parameter/ParameterMgr.cpp: createDomainCommandProcess .. setConfigurationParameterCommandProcess", "parameter/ConfigurableDomain.cpp: addConfigurableElement, createConfiguration, setApplicationRule"]}
{"id": "C96", "title": "A file of criteria declares the criteria that are written in it", "statement": "A line of a file of criteria is accepted exactly when it is a type, a name, a colon and values, with white space between them, and then declares the criterion of that type, name and values, in the order of the values; where colons allow several readings the name is the longest. A line in the documented format declares just what it says. A file is accepted exactly when all its lines are, and declares their criteria in the order of the lines; otherwise the tool stops before it starts the generator, because of the first bad line.", "quantifier": "every text of a line and every list of lines", "why_tests_cant": "a test reads some files; the regular expression backtracks over any spaces and colons, and the claim is about every text, accepted or refused", "anchors": ["tools/xmlGenerator/domainGenerator.py: parseCriteria, generateDomainCommands"]}
{"id": "C97", "title": "A configuration changed for a host starts there as the same structure without plugins and settings", "statement": "A framework started from a configuration that the tools changed for a host allows tuning (so the tuning mode can be turned on), has no domains and no settings, listens to the given port unless that is forbidden, and uses no plugin: its structure is that of the file that the original configuration names, taken in the given directory, with all subsystems virtual. If the client lets missing subsystems pass, every subsystem is. From structures that declare sizes the framework is in a state from which all histories of the other properties begin.", "quantifier": "every configuration, every files, every port and directory that is given or not, every policies of the client", "why_tests_cant": "a test changes one configuration; the claim is about every document, with elements at any depth, and composes the change with the start of the framework", "anchors": ["tools/xmlGenerator/hostConfig.py: configure", "parameter/ParameterMgr.cpp: load, loadFrameworkConfiguration, loadSubsystems, loadStructure, loadSettings, handleRemoteProcessingInterface", "parameter/SystemClass.cpp: loadSubsystems"]}
{"id": "C98", "title": "The domain generation tool writes the domains that its input files describe", "statement": "The tool runs the generator exactly when each line of the file of criteria declares a criterion and each description is translated, and gives it the criteria, the start, the imports and the commands of all descriptions, in this order; with a bad line or a bad description it ends with an error and runs nothing. When the generator then ends with the status 0, the framework had been started with the declared criteria, with the structure of the given configuration and without domains, all documents were imported without error, and what is written is the export of a state that holds, after the imported domains, the domains of the descriptions, in the order of the descriptions, each qualifying and restoring as its description says. Without imports these are all its domains.", "quantifier": "every file of criteria, every configuration of a framework, every documents to import and every descriptions, every structure that declares sizes and fields that do not overlap", "why_tests_cant": "a test runs the tool on one set of files; the claim composes three parsers, the start of the framework and any number of commands", "anchors": ["tools/xmlGenerator/domainGenerator.py: main, parseEdd, generateDomainCommands", "tools/xmlGenerator/hostConfig.py: configure", "tools/xmlGenerator/domainGeneratorConnector.cpp: main, XmlGenerator::parse"]}
{"id": "C99", "title": "A double set through a handle on an adapted integer is the set of the adapted integer", "statement": "For an integer parameter whose type has an adaptation, setAsDouble on its handle does exactly what setting, as an integer, the number that the adaptation gives for the double does: the same bytes, the same calls of the hardware, the same outcome. It is refused and changes nothing when that number leaves the range of the type, when the type has no adaptation or when the parameter is in a domain, and is accepted and ignored in tuning mode. So every property of histories holds with such sets in them. getAsDouble then shows the number that the adaptation shows for the integer stored, whether or not the parameter is in a domain. The same holds for the doubles of an array, one by one; when one of them is refused the hardware is not called, and those before it stay in memory.", "quantifier": "every structure, history, parameter, adaptation, double and library of logarithms", "why_tests_cant": "the doubles, adaptations, types and histories cannot be enumerated, and a set has effects on memory, on the hardware and on later operations", "anchors": ["parameter/ElementHandle.cpp:setAs,getAs,setAsDouble,getAsDouble", "parameter/Parameter.cpp:access,doAccess,doSet,doGet", "parameter/IntegerParameterType.h:toBlackboard,fromBlackboard", "parameter/LinearParameterAdaptation.cpp:fromUserValue,toUserValue"]}
{"id": "C100", "title": "The properties shown of an element are the ones it obeys", "statement": "The command showProperties answers, for a path that leads to an element and only then, the kind of the element, its size, its descriptions and what its type declares, one line for each. What is shown is what sets obey: an integer parameter takes exactly the numbers between the bounds shown, an enum the literals and numbers shown, a string the texts of at most the length shown, and a bit parameter the numbers up to the maximum shown.", "quantifier": "All structures, paths, descriptions, units, types, memories, value spaces and texts or numbers set.", "why_tests_cant": "A test compares one answer with a text; that the answer describes what every later set accepts is a statement on all values and all declarations. The test of the command only checks that the answer is not empty.", "anchors": ["parameter/ParameterMgr.cpp: showPropertiesCommandProcess", "parameter/Element.cpp: showProperties", "parameter/ConfigurableElement.cpp: showProperties", "parameter/IntegerParameterType.h: showProperties", "parameter/EnumParameterType.cpp: showProperties", "parameter/StringParameterType.cpp: showProperties", "parameter/BitParameterType.cpp: showProperties", "parameter/ArrayParameter.cpp: showProperties"]}
{"id": "C101", "title": "The mapping shown of an element lists its bindings and its object", "statement": "The command showMapping of an element of a subsystem lists every mapping binding that holds for the element, as key:value pairs separated by commas, from those of the subsystem down to those of the element itself, the bindings inherited from a type before those of the element; when the element has an object, the key of the creator that made that object follows with the value the object shows; an element without object shows only the bindings. The command is refused exactly when the path leads to no element or to the system class, and it never stops the program on its assertion once the subsystem has been mapped.", "quantifier": "every element tree, mapping, set of creators, path, and every subsystem that has been mapped with success", "why_tests_cant": "The listing depends on which of the ancestors bind keys, on the inheritance of each and on the order of the creators; the assertion that a creator matches relies on the mapping done at start for the same element.", "anchors": ["parameter/ParameterMgr.cpp: showMappingCommandProcess, getParameterMapping", "parameter/Subsystem.cpp: getMapping, formatMappingDataList, findSubsystemObjectFromConfigurableElement, findSubsystemLevelMappingKeyValue, getFormattedSubsystemMappingData", "parameter/ConfigurableElement.cpp: getConfigurableElementContext, getBelongingSubsystem"]}
